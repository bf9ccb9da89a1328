/-
Property C134: samples of dtype `float16`.
-/
import Verif.Proofs.Float16Int
import Verif.Props.Float32Exact
import Verif.Props.NonFinite

namespace Dcor.Props

open Dcor F64

variable {sqrt : F64 → F64} {sum sum16 : List F64 → F64} {dot : List (F64 × F64) → F64} {n : ℕ}

/-- C134: for more than 180 observations the default method returns zero or NaN for the squared distance correlation of all samples
of dtype `float16`, and the distance variances are not finite. -/
theorem C134_correlation_fails (h : IsIeee64 sqrt sum dot) (hn : 180 < n) (bc : Bool)
    (argsort : (Fin n → F64) → Equiv.Perm (Fin n)) (x y : Fin n → F64) :
    ∃ r, Arith.avlStatsHalf (ieee16 sum16) (ieee64 sqrt sum dot) bc argsort x y = .ok r ∧ (r.corr = nan ∨ r.corr = fin 0) ∧
      ¬ r.varX.Finite ∧ ¬ r.varY.Finite := by
  obtain ⟨D, e⟩ := avlTermsWith_safe (ieee16 sum16) (Nat.clog 2 n) (Nat.le_pow_clog (by norm_num) n) false argsort x y (by omega)
  unfold Arith.avlStatsHalf Arith.avlTermsSingle Arith.avlTerms
  rw [e]
  have vx := varTermHalf_not_finite (sum16 := sum16) hn (ieee64 sqrt sum dot) x
  have vy := varTermHalf_not_finite (sum16 := sum16) hn (ieee64 sqrt sum dot) y
  exact ⟨_, rfl, corr_of_not_finite h (fromTermsHalf_not_finite bc vx) (fromTermsHalf_not_finite bc vy),
    fromTermsHalf_not_finite bc vx, fromTermsHalf_not_finite bc vy⟩

/-- C134: so `distance_correlation` is zero or NaN. -/
theorem C134_root (h : IsIeee64 sqrt sum dot) {c : F64} (hc : c = nan ∨ c = fin 0) :
    (ieee64 sqrt sum dot).sqrtClip c = nan ∨ (ieee64 sqrt sum dot).sqrtClip c = fin 0 := by
  rcases hc with rfl | rfl
  · exact .inl (sqrtClip_nan h)
  · right
    have r0 : F64.round ((0 : ℤ) : ℚ) = fin 0 := by decide +kernel
    show sqrt (if F64.lt (fin 0) (F64.round ((0 : ℤ) : ℚ)) = true then F64.round ((0 : ℤ) : ℚ) else fin 0) = _
    rw [r0, ite_self]
    have := h.sqrt (fin 0)
    simp only [F64.IsSqrt, lt_irrefl, if_false] at this
    obtain ⟨s, hs, e⟩ := this
    rcases hs with ⟨_, rfl⟩ | ⟨h0, _⟩
    · exact e
    · exact absurd h0 (lt_irrefl _)

/-- C134: if the product of two observations that belong together is too large for `float16`, the squared distance covariance is
infinite or NaN. -/
theorem C134_covariance_fails (h16 : F16.IsSum sum16) (hn : 3 < n) (bc : Bool) (argsort : (Fin n → F64) → Equiv.Perm (Fin n))
    {x y : Fin n → F64} {i : Fin n} {a b : ℚ} (hx : x i = fin a) (hy : y i = fin b) (hab : 65520 ≤ |a * b|) :
    ∃ r, Arith.avlStatsHalf (ieee16 sum16) (ieee64 sqrt sum dot) bc argsort x y = .ok r ∧ ¬ r.cov.Finite := by
  obtain ⟨D, e⟩ := avlTermsWith_safe (ieee16 sum16) (Nat.clog 2 n) (Nat.le_pow_clog (by norm_num) n) false argsort x y hn
  unfold Arith.avlStatsHalf Arith.avlTermsSingle Arith.avlTerms
  rw [e]
  refine ⟨_, rfl, fromTermsHalf_not_finite bc (h16.not_finite ⟨_, List.mem_ofFn.2 ⟨i, rfl⟩, ?_⟩)⟩
  apply F16.sub_left
  apply F16.sub_left
  apply F16.add_left
  apply F16.mul_left
  rw [hx, hy]
  exact F16.round_large hab

/-- C134: so `distance_covariance` is NaN, infinite or zero. -/
theorem C134_covariance_root (h : IsIeee64 sqrt sum dot) {c : F64} (hc : ¬ c.Finite) :
    (ieee64 sqrt sum dot).sqrtClip c = nan ∨ (ieee64 sqrt sum dot).sqrtClip c = inf false ∨
      (ieee64 sqrt sum dot).sqrtClip c = fin 0 := by
  rcases F64.not_finite.1 hc with rfl | ⟨s, rfl⟩
  · exact .inl (sqrtClip_nan h)
  · have r0 : F64.round ((0 : ℤ) : ℚ) = fin 0 := by decide +kernel
    right
    cases s with
    | false =>
      left
      show sqrt (if F64.lt (inf false) (F64.round ((0 : ℤ) : ℚ)) = true then F64.round ((0 : ℤ) : ℚ) else inf false) = _
      rw [r0, if_neg (by decide)]
      exact h.sqrt (inf false)
    | true =>
      right
      have z := C134_root h (c := fin 0) (.inr rfl)
      have e : (ieee64 sqrt sum dot).sqrtClip (inf true) = (ieee64 sqrt sum dot).sqrtClip (fin 0) := by
        show sqrt (if F64.lt (inf true) (F64.round ((0 : ℤ) : ℚ)) = true then F64.round ((0 : ℤ) : ℚ) else inf true)
          = sqrt (if F64.lt (fin 0) (F64.round ((0 : ℤ) : ℚ)) = true then F64.round ((0 : ℤ) : ℚ) else fin 0)
        rw [r0, if_pos (by decide), ite_self]
      rw [e]
      refine z.resolve_left fun hz => ?_
      have := h.sqrt (fin 0)
      simp only [F64.IsSqrt, lt_irrefl, if_false] at this
      obtain ⟨s, _, e1⟩ := this
      have e2 : (ieee64 sqrt sum dot).sqrtClip (fin 0) = sqrt (fin 0) := by
        show sqrt (if F64.lt (fin 0) (F64.round ((0 : ℤ) : ℚ)) = true then F64.round ((0 : ℤ) : ℚ) else fin 0) = _
        rw [r0, ite_self]
      rw [e2, e1] at hz
      cases hz

/-- C134, the part that holds: for small integers the terms are exact, in any order of summation. Missing: other samples, see
`C134_correlation_fails` and `C134_covariance_fails`. -/
theorem C134_integer_terms_partial (h16 : F16.IsSum sum16) (h : IsIeee64 sqrt sum dot) (hn : 3 < n)
    {argsort : (Fin n → F64) → Equiv.Perm (Fin n)}
    (hsort : ∀ v : Fin n → ℚ, Monotone fun i => v (argsort (fun i => fin (v i)) i))
    {x y : Fin n → ℤ} {X Y : ℤ} (hX : 1 ≤ X) (hY : 1 ≤ Y) (hx : ∀ i, |x i| ≤ X) (hy : ∀ i, |y i| ≤ Y)
    (hM : 4 * ((n : ℤ) * (n * (X * Y))) ≤ 2 ^ 11) :
    Arith.avlTermsSingle (ieee16 sum16) (ieee64 sqrt sum dot) argsort (fun i => fin (x i)) (fun i => fin (y i))
      = .ok { meanProd := fin (∑ i, ∑ j, |(x i : ℚ) - x j| * |(y i : ℚ) - y j|)
              aAxis := fun i => fin (∑ j, |(x i : ℚ) - x j|)
              aTotal := fin (∑ i, ∑ j, |(x i : ℚ) - x j|)
              bAxis := fun i => fin (∑ j, |(y i : ℚ) - y j|)
              bTotal := fin (∑ i, ∑ j, |(y i : ℚ) - y j|) } := by
  have hn' : (4 : ℤ) ≤ n := by exact_mod_cast hn
  have hXY : X ≤ X * Y := le_mul_of_one_le_right (by omega) hY
  have hYX : Y ≤ X * Y := le_mul_of_one_le_left (by omega) hX
  have hNX : (n : ℤ) * X ≤ n * (X * Y) := mul_le_mul_of_nonneg_left hXY (by omega)
  have hNY : (n : ℤ) * Y ≤ n * (X * Y) := mul_le_mul_of_nonneg_left hYX (by omega)
  have hNNX : (n : ℤ) * (n * X) ≤ n * (n * (X * Y)) := mul_le_mul_of_nonneg_left hNX (by omega)
  have hNNY : (n : ℤ) * (n * Y) ≤ n * (n * (X * Y)) := mul_le_mul_of_nonneg_left hNY (by omega)
  have hnX : (n : ℤ) * X ≤ n * (n * X) := le_mul_of_one_le_left (by positivity) (by omega)
  have hnY : (n : ℤ) * Y ≤ n * (n * Y) := le_mul_of_one_le_left (by positivity) (by omega)
  have hXn : X ≤ n * X := le_mul_of_one_le_left (by omega) (by omega)
  have hYn : Y ≤ n * Y := le_mul_of_one_le_left (by omega) (by omega)
  have hS := ieee16_intExact h16
  have hD := ieee64_intExact h.sum
  have hSD : ∀ z : ℤ, |z| ≤ 2 ^ 11 → (ieee16x sum16).ofInt z = (ieee64x sum).ofInt z := fun z hz =>
    (F16.round_int z hz).trans (F64.round_shortInt z hz).symm
  have ofX : (fun i => (ieee16x sum16).ofInt (x i)) = fun i => fin (x i : ℚ) :=
    funext fun i => F16.round_int _ ((hx i).trans (by omega))
  have ofY : (fun i => (ieee16x sum16).ofInt (y i)) = fun i => fin (y i : ℚ) :=
    funext fun i => F16.round_int _ ((hy i).trans (by omega))
  obtain ⟨t, e, ht⟩ := hS.avlTermsWith (Nat.le_pow_clog (by norm_num) n) false argsort x y hn hX hY hx hy hM
  have ofYX : (fun i => (ieee16x sum16).ofInt (y (argsort (fun i => fin (x i : ℚ)) i)))
      = fun i => fin (y (argsort (fun i => fin (x i : ℚ)) i) : ℚ) := funext fun i => congrFun ofY _
  rw [ofX, ofY] at e ht
  rw [ofYX] at ht
  obtain ⟨m1, m2, m3⟩ := sorted_int (fun v => argsort fun i => fin (v i)) hsort x y
  have hperm := permTerms_eq _ _ _ x y m1 m2 m3
  -- sums of distances are small
  have rowBound : ∀ {u : Fin n → ℤ} {U : ℤ}, (∀ i, |u i| ≤ U) → ∀ i, ∑ j, |u i - u j| ≤ n * (2 * U) := by
    intro u U hu i
    calc _ ≤ ∑ _j : Fin n, 2 * U := Finset.sum_le_sum fun j _ => (abs_sub _ _).trans (by have := hu i; have := hu j; omega)
      _ = _ := by simp
  have totBound : ∀ {u : Fin n → ℤ} {U : ℤ}, (∀ i, |u i| ≤ U) → ∑ i, ∑ j, |u i - u j| ≤ n * (n * (2 * U)) := by
    intro u U hu
    calc _ ≤ ∑ _i : Fin n, n * (2 * U) := Finset.sum_le_sum fun i _ => rowBound hu i
      _ = _ := by simp
  have small : ∀ z : ℤ, 0 ≤ z → z ≤ 2 ^ 11 → F64.round (z : ℚ) = fin z := fun z h0 h1 =>
    F64.round_shortInt z ((abs_of_nonneg h0).trans_le h1)
  have hmp : t.meanProd = fin (∑ i, ∑ j, |(x i : ℚ) - x j| * |(y i : ℚ) - y j|) := by
    have hm := ht.meanProd
    rw [hperm] at hm
    have b : ∀ i j, |x i - x j| * |y i - y j| ≤ 4 * (X * Y) := fun i j => by
      have h1 : |x i - x j| ≤ 2 * X := (abs_sub _ _).trans (by have := hx i; have := hx j; omega)
      have h2 : |y i - y j| ≤ 2 * Y := (abs_sub _ _).trans (by have := hy i; have := hy j; omega)
      calc _ ≤ 2 * X * (2 * Y) := mul_le_mul h1 h2 (abs_nonneg _) (by omega)
        _ = _ := by ring
    have hb : ∑ i, ∑ j, |x i - x j| * |y i - y j| ≤ 2 ^ 11 := by
      calc _ ≤ ∑ i : Fin n, ∑ j : Fin n, 4 * (X * Y) := Finset.sum_le_sum fun i _ => Finset.sum_le_sum fun j _ => b i j
        _ = 4 * ((n : ℤ) * (n * (X * Y))) := by simp; ring
        _ ≤ _ := hM
    have h0 : 0 ≤ ∑ i, ∑ j, |x i - x j| * |y i - y j| := by positivity
    rw [hm]
    refine (F16.round_int _ ((abs_of_nonneg h0).trans_le hb)).trans ?_
    push_cast
    rfl
  have hrel := avlTermsWith_rel (ieee16_rel (sum16 := sum16)) (Nat.clog 2 n) false (argsort := argsort)
    (argsort' := argsort) (x := fun i => fin (x i : ℚ)) (y := fun i => fin (y i : ℚ)) (x' := fun i => fin (x i : ℚ))
    (y' := fun i => fin (y i : ℚ)) (fun _ => rfl) (fun _ => rfl) rfl rfl rfl
  have cs : ∀ {m : ℕ} (v : Fin m → F64), (ieee16 sum16).cumsum v = (ieee16x sum16).cumsum v := fun v =>
    funext (cumsum_rel ieee16_rel fun _ => rfl)
  have axisEq : ∀ (σ : Equiv.Perm (Fin n)) (v : Fin n → F64) (i : Fin n),
      Arith.axisSingle (ieee16 sum16) (ieee64 sqrt sum dot) σ v i = Arith.axisSingle (ieee16x sum16) (ieee64x sum) σ v i := by
    intro σ v i
    unfold Arith.axisSingle
    simp only [cs]
    rfl
  have totalEq : ∀ (σ : Equiv.Perm (Fin n)) (v : Fin n → F64),
      Arith.totalSingle (ieee16 sum16) (ieee64 sqrt sum dot) σ v = Arith.totalSingle (ieee16x sum16) (ieee64x sum) σ v := by
    intro σ v
    unfold Arith.totalSingle
    simp only [cs]
    rfl
  have ax : ∀ i, Arith.axisSingle (ieee16 sum16) (ieee64 sqrt sum dot) (argsort fun i => fin (x i : ℚ)) (fun i => fin (x i : ℚ)) i
      = fin (∑ j, |(x i : ℚ) - x j|) := fun i => by
    rw [axisEq, ← ofX, axisSingle_exact hS hD hSD _ x hX hx (by omega) i]
    have hb := rowBound hx i
    have := congrFun (congrArg CoreTerms.aAxis hperm) i
    rw [ofX]
    refine (congrArg (fun z : ℤ => F64.round (z : ℚ)) this).trans ((small (∑ j, |x i - x j|) (by positivity) (by
      have : (n : ℤ) * (2 * X) = 2 * (n * X) := by ring
      omega)).trans ?_)
    push_cast
    rfl
  have ay : ∀ i, Arith.axisSingle (ieee16 sum16) (ieee64 sqrt sum dot) (argsort fun i => fin (y i : ℚ)) (fun i => fin (y i : ℚ)) i
      = fin (∑ j, |(y i : ℚ) - y j|) := fun i => by
    rw [axisEq, ← ofY, axisSingle_exact hS hD hSD _ y hY hy (by omega) i]
    have hb := rowBound hy i
    have := congrFun (congrArg CoreTerms.bAxis hperm) i
    rw [ofY]
    refine (congrArg (fun z : ℤ => F64.round (z : ℚ)) this).trans ((small (∑ j, |y i - y j|) (by positivity) (by
      have : (n : ℤ) * (2 * Y) = 2 * (n * Y) := by ring
      omega)).trans ?_)
    push_cast
    rfl
  have tx : Arith.totalSingle (ieee16 sum16) (ieee64 sqrt sum dot) (argsort fun i => fin (x i : ℚ)) (fun i => fin (x i : ℚ))
      = fin (∑ i, ∑ j, |(x i : ℚ) - x j|) := by
    rw [totalEq, ← ofX, totalSingle_exact hS hD hSD _ x (by omega) hX hx (by omega)]
    have hb := totBound hx
    have := congrArg CoreTerms.aTotal hperm
    rw [ofX]
    refine (congrArg (fun z : ℤ => F64.round (z : ℚ)) this).trans ((small (∑ i, ∑ j, |x i - x j|) (by positivity) (by
      have : (n : ℤ) * (n * (2 * X)) = 2 * (n * (n * X)) := by ring
      omega)).trans ?_)
    push_cast
    rfl
  have ty : Arith.totalSingle (ieee16 sum16) (ieee64 sqrt sum dot) (argsort fun i => fin (y i : ℚ)) (fun i => fin (y i : ℚ))
      = fin (∑ i, ∑ j, |(y i : ℚ) - y j|) := by
    rw [totalEq, ← ofY, totalSingle_exact hS hD hSD _ y (by omega) hY hy (by omega)]
    have hb := totBound hy
    have := congrArg CoreTerms.bTotal hperm
    rw [ofY]
    refine (congrArg (fun z : ℤ => F64.round (z : ℚ)) this).trans ((small (∑ i, ∑ j, |y i - y j|) (by positivity) (by
      have : (n : ℤ) * (n * (2 * Y)) = 2 * (n * (n * Y)) := by ring
      omega)).trans ?_)
    push_cast
    rfl
  rw [e] at hrel
  unfold Arith.avlTermsSingle Arith.avlTerms
  cases e' : (ieee16 sum16).avlTermsWith (Nat.clog 2 n) false argsort (fun i => fin (x i : ℚ)) (fun i => fin (y i : ℚ)) with
  | error er => rw [e'] at hrel; cases hrel
  | ok u =>
    rw [e'] at hrel
    have hu : u.meanProd = t.meanProd := by
      have hrel : CoreRel (fun a b : F64 => a = b) u t := hrel
      exact hrel.meanProd
    simp only [Except.ok_bind', Except.pure_eq]
    rw [hu, hmp, funext ax, funext ay, tx, ty]

/-! ### Cases that meet the hypotheses -/

example := C134_correlation_fails (sum16 := F16.sumSeq) ieee64_seq (n := 200) (by norm_num) false (fun _ => 1)
  (fun i => fin (i : ℕ)) (fun i => fin (2 * (i : ℕ)))
example := C134_root ieee64_seq (c := nan) (.inl rfl)
example := C134_covariance_fails (sqrt := sqrtSeq) (sum := sumSeq) (dot := dotSeq) F16.sumSeq_isSum (n := 4) (by norm_num) false
  (fun _ => 1) (x := ![fin 0, fin 2, fin 100, fin 300]) (y := ![fin 0, fin 1, fin 5, fin 250]) (i := 3) rfl rfl (by norm_num)
example := C134_covariance_root ieee64_seq (c := inf true) id

/-- Some permutation that sorts the rational numbers of a vector. -/
noncomputable def sortHalf (v : Fin n → F64) : Equiv.Perm (Fin n) :=
  Tuple.sort fun i => match v i with
    | fin q => q
    | _ => 0

example := C134_integer_terms_partial F16.sumSeq_isSum ieee64_seq (n := 4) (by norm_num) (argsort := sortHalf)
  (fun v => Tuple.monotone_sort v) (x := ![0, 1, -2, 4]) (y := ![8, -3, 5, 0]) (X := 4) (Y := 8) (by norm_num) (by norm_num)
  (by decide) (by decide) (by norm_num)

end Dcor.Props

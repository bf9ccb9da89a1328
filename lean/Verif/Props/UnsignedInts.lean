/-
Property C114: samples of unsigned integers.
-/
import Verif.Proofs.UnsignedInt
import Verif.Props.Integers
import Mathlib.Data.Fintype.Perm

namespace Dcor.Props

open Finset

variable {n w : ℕ}

/-- The terms represent the distances, up to the sum of products. -/
private theorem unsigned_terms (hw : w ≤ 32) (argsort : (Fin n → BitVec w) → Equiv.Perm (Fin n))
    (hs : ∀ v : Fin n → BitVec w, Monotone fun i => (v (argsort v i)).toNat)
    (x y : Fin n → BitVec w) (t : CoreTerms (BitVec 64) n)
    (ht : avlTermsNarrow (.unsigned w) argsort x y = .ok t) (hn : (n : ℤ) < 2 ^ 15 ∨
      ∃ M : ℤ, 0 ≤ M ∧ (∀ i, ((x i).toNat : ℤ) ≤ M) ∧ (∀ i, ((y i).toNat : ℤ) ≤ M) ∧ 2 * (n : ℤ) ^ 2 * M < 2 ^ 63) :
    let a := absDiff fun i => ((x i).toNat : ℝ)
    let b := absDiff fun i => ((y i).toNat : ℝ)
    ∃ c, unsignedTerms argsort x y = .ok c ∧ c.meanProd = (t.meanProd.toNat : ℝ) ∧
      (∀ i, c.aAxis i = ∑ j, a i j) ∧ (∀ i, c.bAxis i = ∑ j, b i j) ∧
      c.aTotal = ∑ i, ∑ j, a i j ∧ c.bTotal = ∑ i, ∑ j, b i j := by
  intro a b
  obtain ⟨M, hM, hx, hy, hb⟩ : ∃ M : ℤ, 0 ≤ M ∧ (∀ i, ((x i).toNat : ℤ) ≤ M) ∧ (∀ i, ((y i).toNat : ℤ) ≤ M) ∧
      2 * (n : ℤ) ^ 2 * M < 2 ^ 63 := by
    rcases hn with hn | hn
    · have hv : ∀ v : BitVec w, (v.toNat : ℤ) ≤ 2 ^ 32 := fun v => by
        have h1 := v.isLt
        have h2 : 2 ^ w ≤ 2 ^ 32 := Nat.pow_le_pow_right (by norm_num) hw
        have h3 : v.toNat ≤ 2 ^ 32 := by omega
        exact_mod_cast h3
      refine ⟨2 ^ 32, by norm_num, fun i => hv _, fun i => hv _, ?_⟩
      have h0 : (0 : ℤ) ≤ n := Int.natCast_nonneg _
      have : (n : ℤ) ^ 2 < (2 ^ 15) ^ 2 := pow_lt_pow_left₀ hn h0 (by norm_num)
      linarith
    · exact hn
  have h64 : w ≤ 64 := by omega
  have hb1 : 2 * (n : ℤ) * M < 2 ^ 63 := by
    refine lt_of_le_of_lt ?_ hb
    have : (n : ℤ) ≤ (n : ℤ) ^ 2 := by exact_mod_cast Nat.le_self_pow (by norm_num) n
    nlinarith
  refine ⟨_, by unfold unsignedTerms; rw [ht, Except.ok_bind', Except.pure_eq], rfl, ?_, ?_, ?_, ?_⟩
  · exact fun i => axisUnsigned_eq _ x h64 (hs x) M hM hx hb1 i
  · exact fun i => axisUnsigned_eq _ y h64 (hs y) M hM hy hb1 i
  · exact totalUnsigned_eq _ x h64 (hs x) M hM hx hb
  · exact totalUnsigned_eq _ y h64 (hs y) M hM hy hb

/-- C114, the part that holds: on samples of `uint8`, `uint16` or `uint32` numbers up to `M` and `N` the default method
returns the defined values if the largest intermediate result, `4 (n - 1) M N`, is less than `2 ^ w`. `argsort` is any function
that sorts. Missing: other samples, see `C114_pixels_fail`. -/
theorem C114_unsigned_partial (hw : w = 8 ∨ w = 16 ∨ w = 32)
    (argsort : (Fin n → BitVec w) → Equiv.Perm (Fin n))
    (hs : ∀ v : Fin n → BitVec w, Monotone fun i => (v (argsort v i)).toNat)
    (x y : Fin n → BitVec w) (hn : 3 < n) (M N : ℕ) (hM : 1 ≤ M) (hN : 1 ≤ N)
    (hx : ∀ i, (x i).toNat ≤ M) (hy : ∀ i, (y i).toNat ≤ N) (hb : 4 * (n - 1) * (M * N) < 2 ^ w) :
    let a := absDiff fun i => ((x i).toNat : ℝ)
    let b := absDiff fun i => ((y i).toNat : ℝ)
    dcovSqrUnsigned argsort x y false = .ok (.fin (Spec.dcovSqr a b)) ∧
    dcovSqrUnsigned argsort x y true = .ok (.fin (Spec.uDcovSqr a b)) ∧
    statsSqrUnsigned argsort x y false = .ok ⟨.fin (Spec.dcovSqr a b), .fin (Spec.dcorSqr a b),
      .fin (Spec.dcovSqr a a), .fin (Spec.dcovSqr b b)⟩ ∧
    statsSqrUnsigned argsort x y true = .ok ⟨.fin (Spec.uDcovSqr a b), .fin (Spec.uDcorSqr a b),
      .fin (Spec.uDcovSqr a a), .fin (Spec.uDcovSqr b b)⟩ := by
  intro a b
  have hM' : (1 : ℤ) ≤ M := by exact_mod_cast hM
  have hN' : (1 : ℤ) ≤ N := by exact_mod_cast hN
  have hx' : ∀ i, ((x i).toNat : ℤ) ≤ M := fun i => by exact_mod_cast hx i
  have hy' : ∀ i, ((y i).toNat : ℤ) ≤ N := fun i => by exact_mod_cast hy i
  have hn4 : (4 : ℤ) ≤ n := by exact_mod_cast hn
  have hbz : 4 * ((n : ℤ) - 1) * (M * N) < 2 ^ w := by
    have h1 : ((4 * (n - 1) * (M * N) : ℕ) : ℤ) < ((2 ^ w : ℕ) : ℤ) := by exact_mod_cast hb
    rw [Nat.cast_mul, Nat.cast_mul, Nat.cast_sub (by omega)] at h1
    push_cast at h1
    exact h1
  have h64 : w ≤ 64 := by omega
  have hMN : (1 : ℤ) ≤ M * N := by nlinarith
  have hMM : (M : ℤ) ≤ M * N := by nlinarith
  have hNN : (N : ℤ) ≤ M * N := by nlinarith
  have hp : (2 : ℤ) ^ w ≤ 2 ^ 32 := pow_le_pow_right₀ (by norm_num) (by omega)
  have h1 : 4 * ((n : ℤ) - 1) * (M * N) < 2 ^ 32 := lt_of_lt_of_le hbz hp
  have h2 : (n : ℤ) - 1 < 2 ^ 30 := by nlinarith
  have h3 : (n : ℤ) ^ 2 ≤ 2 * ((n : ℤ) - 1) ^ 2 := by nlinarith
  have h4 : ((n : ℤ) - 1) * (4 * ((n : ℤ) - 1) * (M * N)) ≤ 2 ^ 30 * 2 ^ 32 :=
    mul_le_mul h2.le h1.le (mul_nonneg (by linarith) (by linarith)) (by norm_num)
  have hbig : 2 * (n : ℤ) ^ 2 * (M * N) ≤ 2 ^ 62 := by nlinarith
  obtain ⟨c, ec, hmean, hA, hB, hAt, hBt⟩ := unsigned_terms (by omega) argsort hs x y _
    (avlTerms_unsigned h64 argsort hs x y hn M N hM' hN' hx' hy' hbz)
    (Or.inr ⟨M * N, by linarith, fun i => (hx' i).trans hMM, fun i => (hy' i).trans hNN, by linarith⟩)
  have hab : c.meanProd = ∑ i, ∑ j, a i j * b i j := by
    rw [hmean]
    show ((wrap (∑ i, ∑ j, |((x i).toNat : ℤ) - (x j).toNat| * |((y i).toNat : ℤ) - (y j).toNat|)).toNat : ℝ) = _
    rw [← Int.cast_natCast (R := ℝ) (BitVec.toNat _), toNat_wrap]
    · push_cast
      rfl
    · exact sum_nonneg fun i _ => sum_nonneg fun j _ => mul_nonneg (abs_nonneg _) (abs_nonneg _)
    · have hd : ∀ (z : Fin n → BitVec w) (K : ℤ), (∀ i, ((z i).toNat : ℤ) ≤ K) → ∀ i j,
          |((z i).toNat : ℤ) - (z j).toNat| ≤ K := fun z K hz i j => by
        have := hz i
        have := hz j
        rw [abs_le]
        constructor <;> linarith [Int.natCast_nonneg (z i).toNat, Int.natCast_nonneg (z j).toNat]
      calc _ ≤ ∑ _i : Fin n, ∑ _j : Fin n, (M * N : ℤ) := sum_le_sum fun i _ => sum_le_sum fun j _ =>
            mul_le_mul (hd x M hx' i j) (hd y N hy' i j) (abs_nonneg _) (by linarith)
        _ = (n : ℤ) ^ 2 * (M * N) := by simp; ring
        _ < 2 ^ 64 := by linarith
  have h0 : 0 < n := by omega
  have ha : Symm a := absDiff_symm _
  have hbs : Symm b := absDiff_symm _
  have ha0 : ∀ i, a i i = 0 := fun i => by simp [a, absDiff]
  have hb0 : ∀ i, b i i = 0 := fun i => by simp [b, absDiff]
  have va : varTerm (fun i => ((x i).toNat : ℝ)) = ∑ i, ∑ j, a i j * a i j := varTerm_eq h0 _
  have vb : varTerm (fun i => ((y i).toNat : ℝ)) = ∑ i, ∑ j, b i j * b i j := varTerm_eq h0 _
  have pab : ∑ i, c.aAxis i * c.bAxis i = ∑ i, (∑ j, a i j) * (∑ j, b i j) := by simp only [hA, hB]; rfl
  have paa : ∑ i, c.aAxis i * c.aAxis i = ∑ i, (∑ j, a i j) * (∑ j, a i j) := by simp only [hA]; rfl
  have pbb : ∑ i, c.bAxis i * c.bAxis i = ∑ i, (∑ j, b i j) * (∑ j, b i j) := by simp only [hB]; rfl
  unfold dcovSqrUnsigned statsSqrUnsigned
  rw [ec]
  simp only [Except.ok_bind']
  rw [biased_value _ _ _ h0 ha hbs hab pab hAt hBt, biased_value _ _ _ h0 ha ha va paa hAt hAt,
    biased_value _ _ _ h0 hbs hbs vb pbb hBt hBt,
    unbiased_value _ _ _ hn ha hbs ha0 hb0 hab pab hAt hBt, unbiased_value _ _ _ hn ha ha ha0 ha0 va paa hAt hAt,
    unbiased_value _ _ _ hn hbs hbs hb0 hb0 vb pbb hBt hBt]
  simp only [Except.ok_bind', Except.pure_eq]
  refine ⟨trivial, trivial, ?_, ?_⟩ <;> congr 2 <;> exact ratio_eq _ _ _

/-- Two columns of 64 labels `0` and `1` of dtype `uint8`, and two samples of dtype `uint16`. -/
example : (∀ v : Fin 64 → BitVec 8, Monotone fun i =>
      (v (Tuple.sort (fun k => (v k).toNat) i)).toNat) ∧
    (let x : Fin 64 → BitVec 8 := fun i => if (i : ℕ) % 2 = 0 then 0 else 1
     let y : Fin 64 → BitVec 8 := fun i => if (i : ℕ) % 3 = 0 then 0 else 1
     (∀ i, (x i).toNat ≤ 1) ∧ (∀ i, (y i).toNat ≤ 1) ∧ 4 * (64 - 1) * (1 * 1) < 2 ^ 8) ∧
    let x : Fin 5 → BitVec 16 := ![20, 13, 5, 5, 0]
    let y : Fin 5 → BitVec 16 := ![7, 200, 2, 128, 1]
    (∀ i, (x i).toNat ≤ 20) ∧ (∀ i, (y i).toNat ≤ 200) ∧ 4 * (5 - 1) * (20 * 200) < 2 ^ 16 := by
  refine ⟨fun v => Tuple.monotone_sort fun k => (v k).toNat, ?_, ?_⟩ <;> decide

/-- Four grey levels. -/
def pixels : Fin 4 → BitVec 8 := ![10, 20, 30, 50]

private theorem pixels_refl (σ : Equiv.Perm (Fin 4)) (h : Monotone fun i => (pixels (σ i)).toNat) :
    σ = Equiv.refl _ := by
  have hall : ∀ σ : Equiv.Perm (Fin 4), (∀ i j : Fin 4, i ≤ j → (pixels (σ i)).toNat ≤ (pixels (σ j)).toNat) →
      ∀ i, σ i = i := by decide +kernel
  ext i
  rw [hall σ (fun i j hij => h hij) i]
  rfl

/-- C114 fails: on the grey levels `10, 20, 30, 50` of dtype `uint8` the squared distance covariance of the column with itself
is larger than `10 ^ 18` instead of `2225 / 16`, and its squared distance correlation is larger than `10 ^ 15` instead of 1, for
every function that sorts. No error is raised. -/
theorem C114_pixels_fail (argsort : (Fin 4 → BitVec 8) → Equiv.Perm (Fin 4))
    (hs : ∀ v : Fin 4 → BitVec 8, Monotone fun i => (v (argsort v i)).toNat) :
    let a := absDiff fun i => ((pixels i).toNat : ℝ)
    (∃ c, dcovSqrUnsigned argsort pixels pixels false = .ok (.fin c) ∧ 10 ^ 18 < c) ∧
    (∃ s r, statsSqrUnsigned argsort pixels pixels false = .ok s ∧ s.correlationXY = .fin r ∧ 10 ^ 15 < r) ∧
    Spec.dcovSqr a a = 2225 / 16 ∧ Spec.dcorSqr a a = 1 := by
  intro a
  have hσ : argsort pixels = Equiv.refl _ := pixels_refl _ (hs pixels)
  have hτ : (argsort fun i => pixels ((Equiv.refl (Fin 4)) i)) = Equiv.refl _ := hσ
  have hterms := avlTermsNarrow_eq (.unsigned 8) (unsigned_isMonoid (by norm_num) _) argsort pixels
    pixels (by norm_num) _ _ _ hσ hσ hτ
  obtain ⟨c, ec, hmean, hA, hB, hAt, hBt⟩ := unsigned_terms (by norm_num) argsort hs pixels pixels _ hterms
    (Or.inl (by norm_num))
  have hD : c.meanProd = 18446744073709537880 := by
    rw [hmean]
    have : BitVec.toNat (∑ r : Fin 4, ((NarrowType.unsigned 8).load ((NarrowType.unsigned 8).mul (pixels r) (pixels r))
          * narrowG (.unsigned 8) (Equiv.refl _) (fun _ => (NarrowType.unsigned 8).one) r
        + narrowG (.unsigned 8) (Equiv.refl _) (fun i => (NarrowType.unsigned 8).mul (pixels i) (pixels i)) r
        - (NarrowType.unsigned 8).load (pixels r) * narrowG (.unsigned 8) (Equiv.refl _) pixels r
        - (NarrowType.unsigned 8).load (pixels r) * narrowG (.unsigned 8) (Equiv.refl _) pixels r))
        = 18446744073709537880 := by decide +kernel
    exact_mod_cast congrArg (Nat.cast : ℕ → ℝ) this
  have hsym : Symm a := absDiff_symm _
  have e1 : ∑ i, ∑ j, a i j * a i j = 7000 := by
    have h : ∑ i, ∑ j, |((pixels i).toNat : ℤ) - ((pixels j).toNat : ℤ)| * |((pixels i).toNat : ℤ) - ((pixels j).toNat : ℤ)| = 7000 := by
      decide +kernel
    have h' := congrArg (Int.cast : ℤ → ℝ) h
    push_cast at h'
    exact h'
  have e2 : ∑ i, ∑ j, a i j = 260 := by
    have h : ∑ i, ∑ j, |((pixels i).toNat : ℤ) - ((pixels j).toNat : ℤ)| = 260 := by
      decide +kernel
    have h' := congrArg (Int.cast : ℤ → ℝ) h
    push_cast at h'
    exact h'
  have e3 : ∑ i, (∑ j, a i j) * (∑ j, a i j) = 18000 := by
    have h : ∑ i, (∑ j, |((pixels i).toNat : ℤ) - ((pixels j).toNat : ℤ)|) * (∑ j, |((pixels i).toNat : ℤ) - ((pixels j).toNat : ℤ)|) = 18000 := by
      decide +kernel
    have h' := congrArg (Int.cast : ℤ → ℝ) h
    push_cast at h'
    exact h'
  have hspec : Spec.dcovSqr a a = 2225 / 16 := by
    rw [Spec.dcovSqr_eq_terms a a hsym hsym (by norm_num), e1, e2, e3]
    norm_num
  have va : varTerm (fun i => ((pixels i).toNat : ℝ)) = ∑ i, ∑ j, a i j * a i j := varTerm_eq (by norm_num) _
  have hcov : ∀ k, dcovFromTerms k .numpy .numpy c.meanProd c.aAxis c.aTotal c.bAxis c.bTotal false
      = .ok (.fin (18446744073709533105 / 16)) := by
    intro k
    rw [dcovFromTerms_biased _ _ _ (by norm_num), hD, hAt, hBt, e2]
    simp only [hA, hB]
    rw [e3]
    norm_num
  have hva : ∀ k, dcovFromTerms k .numpy .numpy (varTerm fun i => ((pixels i).toNat : ℝ)) c.aAxis c.aTotal c.aAxis
      c.aTotal false = .ok (.fin (2225 / 16)) := by
    intro k
    rw [biased_value _ _ _ (by norm_num) hsym hsym va (by simp only [hA]; rfl) hAt hAt, hspec]
  have hvb : ∀ k, dcovFromTerms k .numpy .numpy (varTerm fun i => ((pixels i).toNat : ℝ)) c.bAxis c.bTotal c.bAxis
      c.bTotal false = .ok (.fin (2225 / 16)) := by
    intro k
    rw [biased_value _ _ _ (by norm_num) hsym hsym va (by simp only [hB]; rfl) hBt hBt, hspec]
  have hratio : ∀ v : ℝ, Spec.ratio v (2225 / 16) (2225 / 16) = v / (2225 / 16) := fun v => by
    unfold Spec.ratio
    rw [if_neg (by norm_num), abs_mul_self, Real.sqrt_mul_self (by norm_num)]
  refine ⟨⟨_, by unfold dcovSqrUnsigned; rw [ec, Except.ok_bind', hcov], by norm_num⟩, ?_, hspec, ?_⟩
  · unfold statsSqrUnsigned
    rw [ec]
    simp only [Except.ok_bind', hcov, hva, hvb, Except.pure_eq]
    refine ⟨_, _, rfl, ratio_eq _ _ _, ?_⟩
    rw [hratio]
    norm_num
  · show Spec.ratio _ _ _ = 1
    rw [hspec, hratio]
    norm_num

end Dcor.Props

/-
Forward error analysis of the mergesort method in `float64`.
-/
import Verif.Proofs.ErrorAvl
import Verif.Proofs.MergeTerms

namespace Dcor

variable {sqrt : ℚ → ℚ} {sum : List ℚ → ℚ} {dot : List (ℚ × ℚ) → ℚ} {n V : ℕ}

theorem Err.congr {k : ℕ} {m q q' r : ℚ} (h : Err k m q r) (e : q = q') : Err k m q' r := e ▸ h

/-! ### Weight sums -/

theorem weights_step {C : Fin V → ℚ} (hC : ∀ v, 0 ≤ C v) (k : ℕ) : (binary64 sqrt sum dot).Step (fun _ => True)
    (fun v q r => Err (n + 2 + k) (2 * n * k * C v) q r) (fun v q r => Err (n + 2 + (k + 1)) (2 * n * (k + 1 : ℕ) * C v) q r)
    (fun v q r => Err (n + 1) (n * C v) q r) where
  mono := by
    intro v g r h
    have := hC v
    refine h.mono (by omega) ?_
    push_cast
    have : 0 ≤ (n : ℚ) * C v := by positivity
    linarith
  step := by
    rintro v a b c r rb rc - - - - - ha hb hc
    refine (ha.add (hb.sub hc)).mono (by omega) (le_of_eq ?_)
    push_cast
    ring

theorem weightsCumsum_err {w w' : Fin n → Fin V → ℚ} {C : Fin V → ℚ} (hC : ∀ v, 0 ≤ C v)
    (hw : ∀ i v, Err 1 (C v) (w i v) (w' i v)) (π : Equiv.Perm (Fin n)) :
    ∃ wc, (binary64 sqrt sum dot).weightsCumsum w' (fun i => (π i : ℕ)) = .ok wc ∧
      ∀ k v, Err (n + 1) (n * C v) (∑ t ∈ Finset.univ.filter (fun t : Fin n => t.val < k.val), w (π t) v) (wc k v) := by
  have hz' : (ringArith ℚ).ofInt 0 = 0 := Int.cast_zero
  have hG : (ringArith ℚ).IsGroup := ⟨hz', rfl, rfl⟩
  have key := weightsCumsum_emb hG.embeds (B := fun _ => True) (w := w) (fun _ _ => trivial) π
  unfold Arith.weightsCumsum at key ⊢
  rw [dif_pos (fun t => (π t).2)] at key ⊢
  refine ⟨_, rfl, fun k v => ?_⟩
  have := congrFun (congrFun (Except.ok.inj key) k) v
  dsimp only at this ⊢
  by_cases hk : (k : ℕ) = 0
  · rw [dif_pos hk] at this ⊢
    rw [← this]
    have hz : (binary64 sqrt sum dot).ofInt 0 = 0 := round64_zero
    rw [hz, hz']
    exact (Err.refl (by rw [abs_zero]; exact mul_nonneg (by positivity) (hC v))).mono (Nat.zero_le _) le_rfl
  · rw [dif_neg hk] at this ⊢
    rw [← this]
    have hlt : (k : ℕ) - 1 < n := by omega
    have := Err.cumsum (sqrt := sqrt) (sum := sum) (dot := dot) (k := 1) (m := C v)
      (v := fun t => w (π t) v) (w := fun t => w' (π t) v) (fun t => hw (π t) v) ⟨k - 1, hlt⟩
    have h2 : 1 + n ≤ n + 1 := by omega
    exact this.mono h2 le_rfl

theorem weightSums_err {w w' : Fin n → Fin V → ℚ} {C : Fin V → ℚ} (hC : ∀ v, 0 ≤ C v)
    (hw : ∀ i v, Err 1 (C v) (w i v) (w' i v)) {ge : ℚ → ℚ → Bool} (hge : IsGe ge) (y : Fin n → ℚ) :
    ∃ (π' : Equiv.Perm (Fin n)) (ws' : Fin n → Fin V → ℚ) (u' : ℕ), (binary64 sqrt sum dot).computeWeightSums ge y w'
        = .ok (fun i => (π' i : ℕ), ws', u')
      ∧ ∀ j v, Err (n + 2 + Nat.clog 2 n) (2 * n * Nat.clog 2 n * C v) (∑ i ∈ Finset.univ.filter
          (fun i : Fin n => i < j ∧ ge (y i) (y j) = false), w i v) (ws' j v) := by
  obtain ⟨π', ws', u', e, h1, _⟩ := Arith.computeWeightSums_step (A := binary64 sqrt sum dot) (B := fun _ => True)
    (rel := fun k v q r => Err (n + 2 + k) (2 * n * k * C v) q r) (weights_step hC) (fun v => by
      have hz : (binary64 sqrt sum dot).ofInt 0 = 0 := round64_zero
      rw [hz]
      exact (Err.refl (by simp)).mono (Nat.zero_le _) le_rfl) hge y (fun _ _ => trivial) (weightsCumsum_err hC hw)
  exact ⟨π', ws', u', e, h1⟩

/-! ### Terms -/

theorem computeAijbijTerm_err (h : IsFloat64 sqrt sum dot) {ge : ℚ → ℚ → Bool} (hge : IsGe ge) {x y : Fin n → ℚ}
    {X Y : ℚ} (hn : 0 < n) (hx : ∀ i, |x i| ≤ X) (hy : ∀ i, |y i| ≤ Y) :
    ∃ r, (binary64 sqrt sum dot).computeAijbijTerm ge x y = .ok r ∧
      Err (3 * n + 14) ((32 * Nat.clog 2 n + 8) * n ^ 2 * (X * Y))
        (∑ j, ∑ i, ((if i < j ∧ ge (y i) (y j) = false then 4 else 0) - 1) * ((x j - x i) * (y j - y i))) r := by
  have ex : ∀ i, Err 0 X (x i) (x i) := fun i => Err.refl (hx i)
  have ey : ∀ i, Err 0 Y (y i) (y i) := fun i => Err.refl (hy i)
  have hX : 0 ≤ X := (ex ⟨0, hn⟩).pos
  have hY : 0 ≤ Y := (ey ⟨0, hn⟩).pos
  have exy : ∀ i, Err 1 (X * Y) (x i * y i) (round64 (x i * y i)) := fun i => (ex i).mul (ey i)
  have hL : Nat.clog 2 n ≤ n := (Nat.clog_le_iff_le_pow (by norm_num)).2 Nat.lt_two_pow_self.le
  -- the exact computation
  obtain ⟨u, eE⟩ := computeAijbijTerm_eq hge x y
  unfold Dcor.computeAijbijTerm at eE
  obtain ⟨π₀, u₀, e₀, _⟩ := Dcor.computeWeightSums_eq hge y (fun i => (![1, y i, x i, x i * y i] : Fin 4 → ℚ))
  simp only at eE
  rw [e₀] at eE
  simp only [Except.ok_bind', Except.pure_eq, Finset.sum_apply, Matrix.cons_val_zero, Matrix.cons_val_one,
    Matrix.cons_val, Except.ok.injEq, Prod.mk.injEq] at eE
  rw [← eE.1]
  clear eE e₀
  -- the weight sums
  obtain ⟨π, ws, u', e, hws⟩ := weightSums_err (sqrt := sqrt) (sum := sum) (dot := dot)
    (w := fun i => (![1, y i, x i, x i * y i] : Fin 4 → ℚ))
    (w' := fun i => (![(binary64 sqrt sum dot).ofInt 1, y i, x i, (binary64 sqrt sum dot).mul (x i) (y i)] : Fin 4 → ℚ))
    (C := ![1, Y, X, X * Y]) (by
      intro v
      fin_cases v
      · exact zero_le_one
      · exact hY
      · exact hX
      · exact mul_nonneg hX hY) (by
      intro i v
      fin_cases v
      · exact (Err.refl (q := ((1 : ℤ) : ℚ)) (m := 1) (by simp)).round.congr (by simp)
      · exact (ey i).mono (Nat.zero_le 1) le_rfl
      · exact (ex i).mono (Nat.zero_le 1) le_rfl
      · exact exy i) hge y
  have w0 := fun j => hws j 0
  have w1 := fun j => hws j 1
  have w2 := fun j => hws j 2
  have w3 := fun j => hws j 3
  simp only [Matrix.cons_val_zero, Matrix.cons_val_one, Matrix.cons_val] at w0 w1 w2 w3
  clear hws
  unfold Arith.computeAijbijTerm
  dsimp only
  rw [e]
  refine ⟨_, rfl, ?_⟩
  have sx := Err.vsum h ex
  have sy := Err.vsum h ey
  have t1 := Err.vdot h exy w0
  have t2 := Err.vdot h ex w1
  have t3 := Err.vdot h ey w2
  have t4 := Err.vsum h w3
  have c1 := Err.vdot h (fun i => (ex i).imul (z := n) (Z := n) (by simp)) ey
  have c2 := Err.vsum h fun i => (sx.mul (ey i)).add (sy.mul (ex i))
  have t := ((((t1.sub t2).sub t3).add t4).imul (z := 4) (Z := 4) (by norm_num)).sub
    ((((c1.sub c2).add (sx.mul sy))).imul (z := 2) (Z := 2) (by norm_num))
  refine (t.mono (by omega) (le_of_eq (by ring))).congr ?_
  simp only [ringArith_vdot, ringArith_vsum]
  push_cast
  rfl

theorem computeRowSums_err (hn : 0 < n) {x : Fin n → ℚ} {X : ℚ} (hx : ∀ i, |x i| ≤ X) :
    ∃ r, (binary64 sqrt sum dot).computeRowSums x = .ok r ∧
      ∀ i, Err (n + 5) (6 * n * X) (∑ q, sgnLt q i * (x i - x q)) (r i) := by
  have e := computeRowSums_eq hn x
  unfold Dcor.computeRowSums at e
  unfold Arith.computeRowSums
  rw [dif_pos hn] at e ⊢
  refine ⟨_, rfl, fun i => ?_⟩
  have e' := congrFun (Except.ok.inj e) i
  rw [← e']
  have ex : ∀ i, Err 0 X (x i) (x i) := fun i => Err.refl (hx i)
  have hX : 0 ≤ X := (ex ⟨0, hn⟩).pos
  have hi : ((i : ℕ) : ℚ) + 1 ≤ n := by exact_mod_cast i.2
  have hi0 : (0 : ℚ) ≤ ((i : ℕ) : ℚ) := by positivity
  have c := fun k => Err.cumsum (sqrt := sqrt) (sum := sum) (dot := dot) ex k
  have t := ((ex i).imul (z := 2 * (((i : ℕ) + 1 : ℕ) : ℤ) - n) (Z := n) (by
    push_cast
    rw [abs_le]
    constructor <;> linarith)).add ((c ⟨n - 1, by omega⟩).sub ((c i).imul (z := 2) (Z := 2) (by norm_num)))
  refine (t.mono (by omega) ?_).congr ?_
  · have : 0 ≤ (n : ℚ) * X := by positivity
    linarith
  · rw [ringArith_cumsum]
    push_cast
    rfl

/-- The sums of the definition, with the rows in another order. -/
def permAbsTerms (σ : Equiv.Perm (Fin n)) (x y : Fin n → ℚ) : CoreTerms ℚ n where
  meanProd := (absTerms x y).meanProd
  aAxis := fun i => (absTerms x y).aAxis (σ i)
  aTotal := (absTerms x y).aTotal
  bAxis := fun i => (absTerms x y).bAxis (σ i)
  bTotal := (absTerms x y).bTotal

theorem mergesortTerms_err (h : IsFloat64 sqrt sum dot) (hn : 0 < n)
    {argsort : (Fin n → ℚ) → Equiv.Perm (Fin n)} (hsort : ∀ v : Fin n → ℚ, Monotone fun i => v (argsort v i))
    {x y : Fin n → ℚ} {X Y : ℚ} (hx : ∀ i, |x i| ≤ X) (hy : ∀ i, |y i| ≤ Y) :
    ∃ t, (binary64 sqrt sum dot).mergesortTerms (fun a b => decide (b ≤ a)) argsort x y = .ok t ∧
      TermsErr (32 * Nat.clog 2 n + 8) X Y (permAbsTerms (argsort x) x y) t := by
  have spec := mergeSpecTerms_eq (argsort x) (argsort fun i => y (argsort x i)) x y (hsort x)
    (hsort fun i => y (argsort x i))
  generalize hσ : argsort x = σ at *
  generalize hτ : (argsort fun i => y (σ i)) = τ at *
  unfold Arith.mergesortTerms
  simp only [hσ, hτ]
  obtain ⟨r, e, hr⟩ := computeAijbijTerm_err h (isGe_le (R := ℚ)) (x := fun i => x (σ i)) (y := fun i => y (σ i)) hn
    (fun i => hx _) (fun i => hy _)
  obtain ⟨a, ea, ha⟩ := computeRowSums_err (sqrt := sqrt) (sum := sum) (dot := dot) hn (x := fun i => x (σ i))
    (fun i => hx _)
  obtain ⟨b, eb, hb⟩ := computeRowSums_err (sqrt := sqrt) (sum := sum) (dot := dot) hn (x := fun i => y (σ (τ i)))
    (fun i => hy _)
  rw [e]
  simp only [Except.ok_bind']
  rw [ea]
  simp only [Except.ok_bind']
  rw [eb]
  refine ⟨_, rfl, ?_⟩
  have s1 : (permAbsTerms σ x y) = mergeSpecTerms (fun a b : ℚ => decide (b ≤ a)) σ τ x y := by
    rw [spec]
    rfl
  rw [s1]
  have hb' : ∀ i, Err (n + 5) (6 * n * Y) (∑ q, sgnLt q (τ.symm i) * (y (σ i) - y (σ (τ q))))
      (scatter (fun _ => (binary64 sqrt sum dot).ofInt 0) τ b i) := by
    intro i
    rw [scatter_perm]
    have := hb (τ.symm i)
    simpa using this
  refine ⟨hr, ha, ?_, hb', ?_⟩
  · refine ((Err.vsum h ha).mono (by omega) (le_of_eq (by ring))).congr ?_
    rw [ringArith_vsum]
    rfl
  · refine ((Err.vsum h hb').mono (by omega) (le_of_eq (by ring))).congr ?_
    rw [ringArith_vsum]
    rfl

end Dcor

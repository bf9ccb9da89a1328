/-
Multiplying the samples by powers of two multiplies every intermediate result of the three methods by a power of
two, without rounding errors.
-/
import Verif.Proofs.Float
import Verif.Proofs.ParametricMerge
import Verif.Proofs.Safety

namespace Dcor

/-- `np.sqrt`, `np.sum` and `@` commute with powers of two: they perform the same operations, in the same order,
on numbers with other exponents. -/
structure Equivariant (sqrt : ℚ → ℚ) (sum : List ℚ → ℚ) (dot : List (ℚ × ℚ) → ℚ) : Prop where
  sqrt : ∀ (j : ℤ) (q : ℚ), sqrt (4 ^ j * q) = 2 ^ j * sqrt q
  sum : ∀ (j : ℤ) (l : List ℚ), sum (l.map fun a => 2 ^ j * a) = 2 ^ j * sum l
  dot : ∀ (i j : ℤ) (l : List (ℚ × ℚ)), dot (l.map fun p => (2 ^ i * p.1, 2 ^ j * p.2)) = 2 ^ (i + j) * dot l

variable {sqrt : ℚ → ℚ} {sum : List ℚ → ℚ} {dot : List (ℚ × ℚ) → ℚ} {n : ℕ}

local notation "B" => binary64 sqrt sum dot

theorem scale_add (j : ℤ) (a b : ℚ) : Arith.add B (2 ^ j * a) (2 ^ j * b) = 2 ^ j * Arith.add B a b := by
  show round64 _ = _ * round64 _
  rw [← round64_scale, mul_add]

theorem scale_sub (j : ℤ) (a b : ℚ) : Arith.sub B (2 ^ j * a) (2 ^ j * b) = 2 ^ j * Arith.sub B a b := by
  show round64 _ = _ * round64 _
  rw [← round64_scale, mul_sub]

theorem scale_mul (i j : ℤ) (a b : ℚ) : Arith.mul B (2 ^ i * a) (2 ^ j * b) = 2 ^ (i + j) * Arith.mul B a b := by
  show round64 _ = _ * round64 _
  rw [← round64_scale, zpow_add₀ (by norm_num)]
  congr 1
  ring

theorem scale_imul (k j : ℤ) (a : ℚ) : Arith.imul B k (2 ^ j * a) = 2 ^ j * Arith.imul B k a := by
  show round64 _ = _ * round64 _
  rw [← round64_scale]
  congr 1
  ring

theorem scale_idiv (k j : ℤ) (a : ℚ) : Arith.idiv B (2 ^ j * a) k = 2 ^ j * Arith.idiv B a k := by
  show round64 _ = _ * round64 _
  rw [← round64_scale]
  congr 1
  ring

theorem scale_zero (j : ℤ) : Arith.ofInt B 0 = 2 ^ j * Arith.ofInt B 0 := by
  show round64 (((0 : ℤ)) : ℚ) = _ * round64 (((0 : ℤ)) : ℚ)
  rw [Int.cast_zero, round64_zero, mul_zero]

theorem scale_cumsum {m : ℕ} (j : ℤ) (v : Fin m → ℚ) (k : Fin m) :
    Arith.cumsum B (fun i => 2 ^ j * v i) k = 2 ^ j * Arith.cumsum B v k := by
  have : ∀ (k : ℕ) (hk : k < m), Arith.cumsumAt B (fun i => 2 ^ j * v i) k hk = 2 ^ j * Arith.cumsumAt B v k hk := by
    intro k
    induction k with
    | zero => intro hk; rfl
    | succ k ih =>
      intro hk
      show Arith.add B _ _ = _ * Arith.add B _ _
      rw [ih, scale_add]
  exact this k k.2

variable (h : Equivariant sqrt sum dot)

include h

theorem scale_vsum {m : ℕ} (j : ℤ) (v : Fin m → ℚ) :
    Arith.vsum B (fun i => 2 ^ j * v i) = 2 ^ j * Arith.vsum B v := by
  show sum _ = _ * sum _
  rw [← h.sum, List.map_ofFn]
  rfl

theorem scale_vdot {m : ℕ} (i j : ℤ) (v w : Fin m → ℚ) :
    Arith.vdot B (fun k => 2 ^ i * v k) (fun k => 2 ^ j * w k) = 2 ^ (i + j) * Arith.vdot B v w := by
  show dot _ = _ * dot _
  rw [← h.dot, List.map_ofFn]
  rfl

theorem scale_mdot (i j : ℤ) (a b : Fin n → Fin n → ℚ) :
    Arith.mdot B (fun k l => 2 ^ i * a k l) (fun k l => 2 ^ j * b k l) = 2 ^ (i + j) * Arith.mdot B a b := by
  show dot _ = _ * dot _
  rw [← h.dot]
  congr 1
  rw [List.map_flatMap]
  congr 1
  funext k
  rw [List.map_map]
  rfl

theorem scale_euclidean {p : ℕ} (j : ℤ) (x : Fin n → Fin p → ℚ) (k l : Fin n) :
    Arith.euclidean B (fun i c => 2 ^ j * x i c) k l = 2 ^ j * Arith.euclidean B x k l := by
  unfold Arith.euclidean
  simp only [scale_sub, scale_mul, scale_vsum h]
  show sqrt _ = _ * sqrt _
  rw [← h.sqrt]
  congr 2
  rw [← two_mul, zpow_mul]
  norm_num

theorem scale_axisSum (j : ℤ) (a : Fin n → Fin n → ℚ) (i : Fin n) :
    Arith.axisSum B (fun k l => 2 ^ j * a k l) i = 2 ^ j * Arith.axisSum B a i := scale_vsum h j (a i)

theorem scale_fromTerms (i j : ℤ) (bc : Bool) (mp : ℚ) (aa ba : Fin n → ℚ) (at' bt : ℚ) :
    Arith.fromTerms B bc (2 ^ (i + j) * mp) (fun k => 2 ^ i * aa k) (2 ^ i * at') (fun k => 2 ^ j * ba k) (2 ^ j * bt)
      = 2 ^ (i + j) * Arith.fromTerms B bc mp aa at' ba bt := by
  unfold Arith.fromTerms
  simp only [scale_idiv, scale_vdot h, scale_mul, scale_imul, scale_sub, scale_add]

theorem scale_varTerm (j : ℤ) (x : Fin n → ℚ) :
    Arith.varTerm B (fun i => 2 ^ j * x i) = 2 ^ (j + j) * Arith.varTerm B x := by
  unfold Arith.varTerm
  simp only [scale_vsum h, scale_idiv, scale_sub, scale_mul, scale_imul]

omit h in
theorem scale_lt (j : ℤ) (a b : ℚ) : Arith.lt B (2 ^ j * a) (2 ^ j * b) = Arith.lt B a b := by
  show decide _ = decide _
  rw [decide_eq_decide]
  exact mul_lt_mul_iff_right₀ (by positivity)

theorem scale_sqrtClip (j : ℤ) (a : ℚ) : Arith.sqrtClip B (2 ^ (j + j) * a) = 2 ^ j * Arith.sqrtClip B a := by
  have e : (2 : ℚ) ^ (j + j) = 4 ^ j := by
    rw [← two_mul, zpow_mul]
    norm_num
  unfold Arith.sqrtClip
  have e2 : Arith.lt B (2 ^ (j + j) * a) (Arith.ofInt B 0) = Arith.lt B a (Arith.ofInt B 0) := by
    conv_lhs => rw [scale_zero (sqrt := sqrt) (sum := sum) (dot := dot) (j + j)]
    exact scale_lt _ _ _
  have e3 : (if Arith.lt B a (Arith.ofInt B 0) = true then Arith.ofInt B 0 else 2 ^ (j + j) * a)
      = 4 ^ j * (if Arith.lt B a (Arith.ofInt B 0) = true then Arith.ofInt B 0 else a) := by
    split_ifs
    · rw [← e]; exact scale_zero _
    · rw [e]
  rw [e2, e3]
  exact h.sqrt _ _

omit h in
theorem scale_eqZero (j : ℤ) (a : ℚ) : Arith.eqZero B (2 ^ j * a) = Arith.eqZero B a := by
  unfold Arith.eqZero
  conv_lhs => rw [scale_zero (sqrt := sqrt) (sum := sum) (dot := dot) j]
  show decide (2 ^ j * a = 2 ^ j * _) = decide (a = _)
  rw [decide_eq_decide]
  exact mul_right_inj' (by positivity)

/-- Terms of samples multiplied by `2 ^ i` and `2 ^ j`. -/
def scaleTerms (i j : ℤ) (t : CoreTerms ℚ n) : CoreTerms ℚ n where
  meanProd := 2 ^ (i + j) * t.meanProd
  aAxis := fun k => 2 ^ i * t.aAxis k
  aTotal := 2 ^ i * t.aTotal
  bAxis := fun k => 2 ^ j * t.bAxis k
  bTotal := 2 ^ j * t.bTotal

theorem scale_stats (i j : ℤ) (bc : Bool) (t : Arith.AllTerms ℚ n) :
    Arith.statsFromTerms B bc
        { core := scaleTerms i j t.core, aMeanProd := 2 ^ (i + i) * t.aMeanProd, bMeanProd := 2 ^ (j + j) * t.bMeanProd }
      = { cov := 2 ^ (i + j) * (Arith.statsFromTerms B bc t).cov
          corr := (Arith.statsFromTerms B bc t).corr
          varX := 2 ^ (i + i) * (Arith.statsFromTerms B bc t).varX
          varY := 2 ^ (j + j) * (Arith.statsFromTerms B bc t).varY } := by
  unfold Arith.statsFromTerms Arith.covFromTerms scaleTerms
  simp only [scale_fromTerms h]
  congr 1
  have e : ∀ a b : ℚ, Arith.abs B (Arith.mul B (2 ^ (i + i) * a) (2 ^ (j + j) * b))
      = 2 ^ ((i + j) + (i + j)) * Arith.abs B (Arith.mul B a b) := by
    intro a b
    rw [scale_mul]
    show |_| = _ * |_|
    rw [abs_mul, abs_of_pos (show (0 : ℚ) < 2 ^ (i + i + (j + j)) by positivity)]
    congr 2
    ring
  rw [e, scale_sqrtClip h, scale_eqZero]
  split_ifs
  · rfl
  · show round64 _ = round64 _
    congr 1
    rw [mul_div_mul_left _ _ (by positivity)]

/-! ### Naive -/

theorem scale_naive {p q : ℕ} (i j : ℤ) (bc : Bool) (x : Fin n → Fin p → ℚ) (y : Fin n → Fin q → ℚ) :
    Arith.naiveStats B bc (fun k c => 2 ^ i * x k c) (fun k c => 2 ^ j * y k c)
      = { cov := 2 ^ (i + j) * (Arith.naiveStats B bc x y).cov
          corr := (Arith.naiveStats B bc x y).corr
          varX := 2 ^ (i + i) * (Arith.naiveStats B bc x y).varX
          varY := 2 ^ (j + j) * (Arith.naiveStats B bc x y).varY } := by
  unfold Arith.naiveStats
  rw [← scale_stats h]
  congr 1
  have ex : Arith.euclidean B (fun k c => 2 ^ i * x k c) = fun k l => 2 ^ i * Arith.euclidean B x k l := by
    funext k l; exact scale_euclidean h i x k l
  have ey : Arith.euclidean B (fun k c => 2 ^ j * y k c) = fun k l => 2 ^ j * Arith.euclidean B y k l := by
    funext k l; exact scale_euclidean h j y k l
  rw [ex, ey]
  unfold Arith.naiveTerms scaleTerms
  have ea : Arith.axisSum B (fun k l => 2 ^ i * Arith.euclidean B x k l)
      = fun k => 2 ^ i * Arith.axisSum B (Arith.euclidean B x) k := funext fun k => scale_axisSum h i _ k
  have eb : Arith.axisSum B (fun k l => 2 ^ j * Arith.euclidean B y k l)
      = fun k => 2 ^ j * Arith.axisSum B (Arith.euclidean B y) k := funext fun k => scale_axisSum h j _ k
  simp only [scale_mdot h, ea, eb, scale_vsum h]

/-! ### AVL -/

theorem scale_avlTerms (i j : ℤ) {L : ℕ} (hL : n ≤ 2 ^ L) (compiled : Bool)
    (argsort : (Fin n → ℚ) → Equiv.Perm (Fin n))
    (hsort : ∀ (j : ℤ) (v : Fin n → ℚ), (argsort fun k => 2 ^ j * v k) = argsort v) (x y : Fin n → ℚ) (hn : 3 < n) :
    ∃ t, Arith.avlTermsWith B L compiled argsort x y = .ok t ∧
      Arith.avlTermsWith B L compiled argsort (fun k => 2 ^ i * x k) (fun k => 2 ^ j * y k)
        = .ok (scaleTerms i j t) := by
  choose D hD using avlTermsWith_safe_loop B L hL compiled (argsort fun i => y (argsort x i))
  have hDs : ∀ (j : ℤ) c, D (fun k => 2 ^ j * c k) = fun k => 2 ^ j * D c k := by
    intro j c
    have hrel : Arith.AddRel B B (fun a b => a = 2 ^ j * b) := by
      refine ⟨scale_zero j, ?_, ?_⟩
      · rintro a b a' b' rfl rfl
        exact scale_add j a' b'
      · intro l l' hl
        have : l = l'.map fun a => 2 ^ j * a := by
          induction hl with
          | nil => rfl
          | cons e _ ih => rw [List.map_cons, e, ih]
        rw [this]
        exact h.sum j l'
    have e1 := hD fun k => 2 ^ j * c k
    have e2 := hD c
    cases compiled
    · simp only [Bool.false_eq_true, if_false] at e1 e2
      have := dyadUpdate_rel (s := fun _ : Fin (2 ^ (L + 1)) => Arith.ofInt B 0)
        (s' := fun _ : Fin (2 ^ (L + 1)) => Arith.ofInt B 0) (ps := posSums L)
        (y := rankOf (argsort fun i => y (argsort x i))) hrel
        (c := fun k => 2 ^ j * c k) (c' := c) (fun _ => rfl) (g := fun _ => Arith.ofInt B 0)
        (g' := fun _ => Arith.ofInt B 0) (fun _ => scale_zero j)
      rw [e1, e2] at this
      exact funext this
    · simp only [if_true] at e1 e2
      have := dyadUpdateCompiled_rel (s := fun _ : Fin (2 ^ (L + 1)) => Arith.ofInt B 0)
        (s' := fun _ : Fin (2 ^ (L + 1)) => Arith.ofInt B 0) (ps := posSums L)
        (y := rankOf (argsort fun i => y (argsort x i))) hrel
        (c := fun k => 2 ^ j * c k) (c' := c) (fun _ => rfl) (g := fun _ => Arith.ofInt B 0)
        (g' := fun _ => Arith.ofInt B 0) (fun _ => scale_zero j)
      rw [e1, e2] at this
      exact funext this
  refine ⟨_, avlTermsWith_eq B L compiled argsort x y hn D hD, ?_⟩
  have s1 : (argsort fun k => 2 ^ i * x k) = argsort x := hsort i x
  have s2 : (argsort fun k => 2 ^ j * y k) = argsort y := hsort j y
  have s3 : (argsort fun k => 2 ^ j * y (argsort x k)) = argsort fun k => y (argsort x k) :=
    hsort j fun k => y (argsort x k)
  have key := avlTermsWith_eq B L compiled argsort (fun k => 2 ^ i * x k) (fun k => 2 ^ j * y k) hn D
    (by simp only [s1, s3]; exact hD)
  rw [s1, s2, s3] at key
  rw [key]
  congr 1
  have hpart : ∀ (σ τ : Equiv.Perm (Fin n)) (j : ℤ) (c g : Fin n → ℚ) (k : Fin n),
      Arith.partShape B σ τ (fun k => 2 ^ j * c k) (fun k => 2 ^ j * g k) k = 2 ^ j * Arith.partShape B σ τ c g k := by
    intro σ τ j c g k
    unfold Arith.partShape
    simp only [scale_vsum h, scale_cumsum, scale_sub, scale_imul, scale_add]
  have haxis : ∀ (σ : Equiv.Perm (Fin n)) (j : ℤ) (x : Fin n → ℚ) (k : Fin n),
      Arith.axisShape B σ (fun k => 2 ^ j * x k) k = 2 ^ j * Arith.axisShape B σ x k := by
    intro σ j x k
    unfold Arith.axisShape
    simp only [scale_vsum h, scale_cumsum, scale_sub, scale_imul, scale_add]
  have htotal : ∀ (σ : Equiv.Perm (Fin n)) (j : ℤ) (x : Fin n → ℚ),
      Arith.totalShape B σ (fun k => 2 ^ j * x k) = 2 ^ j * Arith.totalShape B σ x := by
    intro σ j x
    unfold Arith.totalShape
    simp only [scale_vsum h, scale_cumsum, scale_sub, scale_imul]
  unfold Arith.avlShape scaleTerms
  congr 1
  · unfold Arith.prodShape
    dsimp only
    simp only [scale_mul, hDs, hpart]
    rw [← scale_vsum h]
    congr 1
    funext k
    have e := scale_mul (sqrt := sqrt) (sum := sum) (dot := dot)
    rw [show ∀ a b : ℚ, Arith.mul B (2 ^ (i + j) * a) b = 2 ^ (i + j) * Arith.mul B a b by
      intro a b
      have := e (i + j) 0 a b
      simpa using this]
    rw [add_comm j i, scale_add, scale_sub, scale_sub]
  · exact funext fun k => haxis _ _ _ _
  · exact htotal _ _ _
  · exact funext fun k => haxis _ _ _ _
  · exact htotal _ _ _

/-! ### Mergesort -/

theorem scale_mergesortTerms (i j : ℤ) (argsort : (Fin n → ℚ) → Equiv.Perm (Fin n))
    (hsort : ∀ (j : ℤ) (v : Fin n → ℚ), (argsort fun k => 2 ^ j * v k) = argsort v) (x y : Fin n → ℚ) (hn : 0 < n) :
    ∃ t, Arith.mergesortTerms B (fun a b => decide (b ≤ a)) argsort x y = .ok t ∧
      Arith.mergesortTerms B (fun a b => decide (b ≤ a)) argsort (fun k => 2 ^ i * x k) (fun k => 2 ^ j * y k)
        = .ok (scaleTerms i j t) := by
  obtain ⟨t, e⟩ := mergesortTerms_safe B (fun a b => decide (b ≤ a)) argsort x y hn
  refine ⟨t, e, ?_⟩
  have s1 : (argsort fun k => 2 ^ i * x k) = argsort x := hsort i x
  have s3 : (argsort fun k => 2 ^ j * y (argsort x k)) = argsort fun k => y (argsort x k) :=
    hsort j fun k => y (argsort x k)
  have hrow : ∀ (v : Fin n → ℚ) (j : ℤ), ∃ r, Arith.computeRowSums B v = .ok r ∧
      Arith.computeRowSums B (fun k => 2 ^ j * v k) = .ok (fun k => 2 ^ j * r k) := by
    intro v j
    unfold Arith.computeRowSums
    rw [dif_pos hn, dif_pos hn]
    refine ⟨_, rfl, ?_⟩
    simp only [scale_cumsum, scale_imul, scale_sub, scale_add]
  have hterm : ∀ x y : Fin n → ℚ, ∃ r, Arith.computeAijbijTerm B (fun a b => decide (b ≤ a)) x y = .ok r ∧
      Arith.computeAijbijTerm B (fun a b => decide (b ≤ a)) (fun k => 2 ^ i * x k) (fun k => 2 ^ j * y k)
        = .ok (2 ^ (i + j) * r) := by
    intro x y
    let d : Fin 4 → ℤ := ![0, j, i, i + j]
    obtain ⟨r, er, _⟩ := computeWeightSums_safe B (fun a b : ℚ => decide (b ≤ a)) y
      (fun k => (![Arith.ofInt B 1, y k, x k, Arith.mul B (x k) (y k)] : Fin 4 → ℚ))
    have hrel := computeWeightSums_rel (A := B) (A' := B) (rel := fun v a b => a = 2 ^ d v * b)
      ⟨fun v => scale_zero _, by rintro v _ _ a b rfl rfl; exact scale_add _ a b,
        by rintro v _ _ a b rfl rfl; exact scale_sub _ a b⟩
      (ge := fun a b : ℚ => decide (b ≤ a)) (ge' := fun a b : ℚ => decide (b ≤ a))
      (y := fun k => 2 ^ j * y k) (y' := y) (fun k l => by
        rw [decide_eq_decide]
        exact mul_le_mul_iff_right₀ (by positivity))
      (w := fun k => (![Arith.ofInt B 1, 2 ^ j * y k, 2 ^ i * x k, Arith.mul B (2 ^ i * x k) (2 ^ j * y k)] : Fin 4 → ℚ))
      (w' := fun k => (![Arith.ofInt B 1, y k, x k, Arith.mul B (x k) (y k)] : Fin 4 → ℚ)) (by
        intro k v
        fin_cases v
        · show Arith.ofInt B 1 = 2 ^ (0 : ℤ) * Arith.ofInt B 1
          simp
        · rfl
        · rfl
        · exact scale_mul i j (x k) (y k))
    rw [er] at hrel
    obtain ⟨r', er', _, hw, _⟩ := hrel.of_ok
    have w0 : ∀ k, r'.2.1 k 0 = r.2.1 k 0 := fun k => by
      have := hw k 0
      simpa [d] using this
    have w1 : ∀ k, r'.2.1 k 1 = 2 ^ j * r.2.1 k 1 := fun k => hw k 1
    have w2 : ∀ k, r'.2.1 k 2 = 2 ^ i * r.2.1 k 2 := fun k => hw k 2
    have w3 : ∀ k, r'.2.1 k 3 = 2 ^ (i + j) * r.2.1 k 3 := fun k => hw k 3
    have dot0 : ∀ v w : Fin n → ℚ, Arith.vdot B (fun k => 2 ^ (i + j) * v k) w = 2 ^ (i + j) * Arith.vdot B v w := by
      intro v w
      have := scale_vdot h (i + j) 0 v w
      simpa using this
    have dotc : ∀ v w : Fin n → ℚ, Arith.vdot B (fun k => 2 ^ j * v k) (fun k => 2 ^ i * w k)
        = 2 ^ (i + j) * Arith.vdot B v w := by
      intro v w
      rw [scale_vdot h, add_comm]
    have mulc : ∀ a b : ℚ, Arith.mul B (2 ^ j * a) (2 ^ i * b) = 2 ^ (i + j) * Arith.mul B a b := by
      intro a b
      rw [scale_mul, add_comm]
    unfold Arith.computeAijbijTerm
    simp only [er, er', Except.ok_bind', Except.pure_eq]
    refine ⟨_, rfl, ?_⟩
    simp only [w0, w1, w2, w3, scale_vsum h, scale_imul, scale_mul, mulc, dot0, dotc, scale_vdot h, scale_add, scale_sub]
  obtain ⟨ra, ea, ea'⟩ := hterm (fun k => x (argsort x k)) (fun k => y (argsort x k))
  obtain ⟨rx, ex, ex'⟩ := hrow (fun k => x (argsort x k)) i
  obtain ⟨ry, ey, ey'⟩ := hrow (fun k => y (argsort x ((argsort fun i => y (argsort x i)) k))) j
  unfold Arith.mergesortTerms at e ⊢
  simp only [ea, ex, ey, Except.ok_bind', Except.pure_eq] at e
  simp only [s1, s3, ea', ex', ey', Except.ok_bind', Except.pure_eq]
  injection e with e
  subst e
  congr 1
  unfold scaleTerms
  simp only [scale_vsum h]
  have hsc : ∀ (σ : Equiv.Perm (Fin n)) (v : Fin n → ℚ), scatter (fun _ => Arith.ofInt B 0) σ (fun k => 2 ^ j * v k)
      = fun k => 2 ^ j * scatter (fun _ => Arith.ofInt B 0) σ v k := by
    intro σ v
    funext k
    simp only [scatter_perm]
  rw [hsc, scale_vsum h]

end Dcor

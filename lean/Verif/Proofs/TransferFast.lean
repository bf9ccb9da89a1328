/-
The terms of the fast methods: finite results agree with those of `float64` without limits if nothing underflows.
-/
import Verif.Proofs.Transfer

namespace Dcor

open F64

/-- Related terms. -/
structure TermsRelG (g0 ga gb : ℤ) {n : ℕ} (t : CoreTerms F64 n) (t' : CoreTerms ℚ n) : Prop where
  meanProd : RelG g0 t.meanProd t'.meanProd
  aAxis : ∀ i, RelG ga (t.aAxis i) (t'.aAxis i)
  aTotal : RelG ga t.aTotal t'.aTotal
  bAxis : ∀ i, RelG gb (t.bAxis i) (t'.bAxis i)
  bTotal : RelG gb t.bTotal t'.bTotal

variable {sqrt : F64 → F64} {sum : List F64 → F64} {dot : List (F64 × F64) → F64} {n m p : ℕ} {g g' : ℤ}

local notation "I" => ieee64 sqrt sum dot
local notation "B" => binary64 (lowerSqrt sqrt) (lowerSum sum) (lowerDot dot)

/-! ### AVL -/

theorem addRel_relG (h : IsIeee64 sqrt sum dot) (hg : g ≤ 1074) (hg0 : 0 ≤ g) : Arith.AddRel I B (RelG g) where
  zero := (RelG.ofInt 0).mono hg0
  add _ _ _ _ ha hb := ha.add hb hg
  sum _ _ hl := sum_relG h hg hl

theorem imul_relG (hg : g ≤ 1074) {a : F64} {q : ℚ} (k : ℤ) (h : RelG g a q) :
    RelG g (Arith.imul I k a) (Arith.imul B k q) := h.imul k hg

theorem add_relG (hg : g ≤ 1074) {a b : F64} {q r : ℚ} (h : RelG g a q) (h' : RelG g b r) :
    RelG g (Arith.add I a b) (Arith.add B q r) := h.add h' hg

theorem sub_relG (hg : g ≤ 1074) {a b : F64} {q r : ℚ} (h : RelG g a q) (h' : RelG g b r) :
    RelG g (Arith.sub I a b) (Arith.sub B q r) := h.sub h' hg

theorem mul_relG {G : ℤ} (hg : g + g' = G) (hG : G ≤ 1074) {a b : F64} {q r : ℚ} (h : RelG g a q) (h' : RelG g' b r) :
    RelG G (Arith.mul I a b) (Arith.mul B q r) := hg ▸ h.mul h' (hg ▸ hG)

theorem partShape_relG (h : IsIeee64 sqrt sum dot) (hg : g ≤ 1074) (σ τ : Equiv.Perm (Fin n)) {c d : Fin n → F64}
    {c' d' : Fin n → ℚ} (hc : ∀ i, RelG g (c i) (c' i)) (hd : ∀ i, RelG g (d i) (d' i)) (i : Fin n) :
    RelG g (Arith.partShape I σ τ c d i) (Arith.partShape B σ τ c' d' i) := by
  unfold Arith.partShape
  refine add_relG hg (sub_relG hg (sub_relG hg (sub_relG hg (vsum_relG h hg hc) (hc _)) (imul_relG hg _
    (sub_relG hg (cumsum_relG hg (fun k => hc _) _) (hc _)))) (imul_relG hg _ (sub_relG hg (cumsum_relG hg hc _) (hc _))))
    (imul_relG hg _ (hd _))

theorem axisShape_relG (h : IsIeee64 sqrt sum dot) (hg : g ≤ 1074) (σ : Equiv.Perm (Fin n)) {x : Fin n → F64}
    {x' : Fin n → ℚ} (hx : ∀ i, RelG g (x i) (x' i)) (i : Fin n) :
    RelG g (Arith.axisShape I σ x i) (Arith.axisShape B σ x' i) := by
  unfold Arith.axisShape
  exact sub_relG hg (add_relG hg (vsum_relG h hg hx) (imul_relG hg _ (hx _)))
    (imul_relG hg _ (sub_relG hg (cumsum_relG hg (fun k => hx _) _) (hx _)))

theorem totalShape_relG (h : IsIeee64 sqrt sum dot) (hg : g ≤ 1074) (σ : Equiv.Perm (Fin n)) {x : Fin n → F64}
    {x' : Fin n → ℚ} (hx : ∀ i, RelG g (x i) (x' i)) :
    RelG g (Arith.totalShape I σ x) (Arith.totalShape B σ x') := by
  unfold Arith.totalShape
  exact sub_relG hg (imul_relG hg _ (vsum_relG h hg fun i => imul_relG hg _ (hx i)))
    (imul_relG hg _ (vsum_relG h hg fun i => sub_relG hg (cumsum_relG hg (fun k => hx _) _) (hx _)))

theorem prodShape_relG (h : IsIeee64 sqrt sum dot) {gx gy : ℤ} (hg : gx + gy ≤ 1074) (hx0 : 0 ≤ gx) (hy0 : 0 ≤ gy)
    (σ τ : Equiv.Perm (Fin n)) {D : (Fin n → F64) → Fin n → F64} {D' : (Fin n → ℚ) → Fin n → ℚ}
    (hD : ∀ g, 0 ≤ g → g ≤ 1074 → ∀ c c', (∀ i, RelG g (c i) (c' i)) → ∀ i, RelG g (D c i) (D' c' i))
    {x y : Fin n → F64} {x' y' : Fin n → ℚ} (hx : ∀ i, RelG gx (x i) (x' i)) (hy : ∀ i, RelG gy (y i) (y' i)) :
    RelG (gx + gy) (Arith.prodShape I σ τ D x y) (Arith.prodShape B σ τ D' x' y') := by
  unfold Arith.prodShape
  have hp : ∀ g, 0 ≤ g → g ≤ 1074 → ∀ c c', (∀ i, RelG g (c i) (c' i)) → ∀ i,
      RelG g (Arith.partShape I σ τ c (D c) i) (Arith.partShape B σ τ c' (D' c') i) :=
    fun g h0 h1 c c' hc i => partShape_relG h h1 σ τ hc (hD g h0 h1 c c' hc) i
  refine vsum_relG h hg fun i => ?_
  refine sub_relG hg (sub_relG hg (add_relG hg ?_ ?_) ?_) ?_
  · exact mul_relG (add_zero _) hg (mul_relG rfl hg (hx i) (hy i)) (hp 0 le_rfl (by omega) _ _ (fun _ => RelG.ofInt 1) i)
  · exact hp _ (by omega) hg _ _ (fun k => mul_relG rfl hg (hx _) (hy _)) i
  · exact mul_relG rfl hg (hx i) (hp _ hy0 (by omega) _ _ (fun k => hy _) i)
  · exact mul_relG (add_comm _ _) hg (hy i) (hp _ hx0 (by omega) _ _ (fun k => hx _) i)

theorem avlTerms_relG (h : IsIeee64 sqrt sum dot) {gx gy : ℤ} (hg : gx + gy ≤ 1074) (hx0 : 0 ≤ gx) (hy0 : 0 ≤ gy)
    (compiled : Bool) (argsort : (Fin n → F64) → Equiv.Perm (Fin n)) {x y : Fin n → ℚ} (hn : 3 < n)
    (hx : ∀ i, OnGrid gx (x i)) (hy : ∀ i, OnGrid gy (y i)) :
    ∃ t t', Arith.avlTerms I compiled argsort (fun i => fin (x i)) (fun i => fin (y i)) = .ok t ∧
      Arith.avlTerms B compiled (fun v => argsort fun i => fin (v i)) x y = .ok t' ∧ TermsRelG (gx + gy) gx gy t t' := by
  have hL : n ≤ 2 ^ Nat.clog 2 n := Nat.le_pow_clog (by norm_num) n
  obtain ⟨σ, hσ⟩ : ∃ σ, σ = argsort fun i => fin (x i) := ⟨_, rfl⟩
  obtain ⟨τ, hτ⟩ : ∃ τ, τ = argsort fun i => fin (y (σ i)) := ⟨_, rfl⟩
  choose D hD using avlTermsWith_safe_loop I (Nat.clog 2 n) hL compiled τ
  choose D' hD' using avlTermsWith_safe_loop B (Nat.clog 2 n) hL compiled τ
  have hrx : ∀ i, RelG gx (fin (x i)) (x i) := fun i => .of_fin (hx i)
  have hry : ∀ i, RelG gy (fin (y i)) (y i) := fun i => .of_fin (hy i)
  have hDD : ∀ g, 0 ≤ g → g ≤ 1074 → ∀ c c', (∀ i, RelG g (c i) (c' i)) → ∀ i, RelG g (D c i) (D' c' i) := by
    intro g h0 h1 c c' hc
    have e := hD c
    have e' := hD' c'
    have hz : RelG g (F64.round ((0 : ℤ) : ℚ)) (round64 ((0 : ℤ) : ℚ)) := (RelG.ofInt 0).mono h0
    cases compiled with
    | false =>
      rw [if_neg (by simp)] at e e'
      have := dyadUpdate_rel (addRel_relG h h1 h0) (y := rankOf τ) (s := fun _ : Fin (2 ^ (Nat.clog 2 n + 1)) =>
        Arith.ofInt I 0) (s' := fun _ => Arith.ofInt B 0) (ps := posSums (Nat.clog 2 n)) hc (fun _ : Fin n => hz)
      have e1 : Arith.dyadUpdate I (rankOf τ) c (fun _ => F64.round ((0 : ℤ) : ℚ)) (Nat.clog 2 n)
        (fun _ : Fin (2 ^ (Nat.clog 2 n + 1)) => Arith.ofInt I 0) (posSums (Nat.clog 2 n)) = .ok (D c) := e
      have e2 : Arith.dyadUpdate B (rankOf τ) c' (fun _ => round64 ((0 : ℤ) : ℚ)) (Nat.clog 2 n)
        (fun _ : Fin (2 ^ (Nat.clog 2 n + 1)) => Arith.ofInt B 0) (posSums (Nat.clog 2 n)) = .ok (D' c') := e'
      rw [e1, e2] at this
      exact this
    | true =>
      rw [if_pos rfl] at e e'
      have := dyadUpdateCompiled_rel (addRel_relG h h1 h0) (y := rankOf τ) (s := fun _ : Fin (2 ^ (Nat.clog 2 n + 1)) =>
        Arith.ofInt I 0) (s' := fun _ => Arith.ofInt B 0) (ps := posSums (Nat.clog 2 n)) hc (fun _ : Fin n => hz)
      have e1 : Arith.dyadUpdateCompiled I (rankOf τ) c (fun _ => F64.round ((0 : ℤ) : ℚ)) (Nat.clog 2 n)
        (fun _ : Fin (2 ^ (Nat.clog 2 n + 1)) => Arith.ofInt I 0) (posSums (Nat.clog 2 n)) = .ok (D c) := e
      have e2 : Arith.dyadUpdateCompiled B (rankOf τ) c' (fun _ => round64 ((0 : ℤ) : ℚ)) (Nat.clog 2 n)
        (fun _ : Fin (2 ^ (Nat.clog 2 n + 1)) => Arith.ofInt B 0) (posSums (Nat.clog 2 n)) = .ok (D' c') := e'
      rw [e1, e2] at this
      exact this
  rw [hτ, hσ] at hD hD'
  refine ⟨_, _, avlTermsWith_eq I _ compiled argsort _ _ hn D hD,
    avlTermsWith_eq B _ compiled (fun v => argsort fun i => fin (v i)) _ _ hn D' hD', ?_⟩
  exact ⟨prodShape_relG h hg hx0 hy0 _ _ hDD hrx hry, axisShape_relG h (by omega) _ hrx,
    totalShape_relG h (by omega) _ hrx, axisShape_relG h (by omega) _ hry, totalShape_relG h (by omega) _ hry⟩

/-! ### Mergesort -/

theorem mergeRel_relG {V : ℕ} {gs : Fin V → ℤ} (h0 : ∀ v, 0 ≤ gs v) (h1 : ∀ v, gs v ≤ 1074) :
    MergeRel I B (fun v => RelG (gs v)) where
  zero v := (RelG.ofInt 0).mono (h0 v)
  add v _ _ _ _ ha hb := ha.add hb (h1 v)
  sub v _ _ _ _ ha hb := ha.sub hb (h1 v)

theorem rowSums_relG (hg : g ≤ 1074) {x : Fin n → F64} {x' : Fin n → ℚ} (hx : ∀ i, RelG g (x i) (x' i)) :
    ExRel (fun a b => ∀ i, RelG g (a i) (b i)) (Arith.computeRowSums I x) (Arith.computeRowSums B x') := by
  unfold Arith.computeRowSums
  split_ifs with hn
  · intro i
    exact add_relG hg (imul_relG hg _ (hx i)) (sub_relG hg (cumsum_relG hg hx _) (imul_relG hg _ (cumsum_relG hg hx _)))
  · rfl

theorem aijbij_relG (h : IsIeee64 sqrt sum dot) {gx gy : ℤ} (hg : gx + gy ≤ 1074) (hx0 : 0 ≤ gx) (hy0 : 0 ≤ gy)
    {ge : F64 → F64 → Bool} {x y : Fin n → ℚ} (hx : ∀ i, OnGrid gx (x i)) (hy : ∀ i, OnGrid gy (y i)) :
    ExRel (RelG (gx + gy)) (Arith.computeAijbijTerm I ge (fun i => fin (x i)) (fun i => fin (y i)))
      (Arith.computeAijbijTerm B (fun a b => ge (fin a) (fin b)) x y) := by
  have hrx : ∀ i, RelG gx (fin (x i)) (x i) := fun i => .of_fin (hx i)
  have hry : ∀ i, RelG gy (fin (y i)) (y i) := fun i => .of_fin (hy i)
  have hm : MergeRel I B (fun v : Fin 4 => RelG ((![0, gy, gx, gx + gy] : Fin 4 → ℤ) v)) :=
    mergeRel_relG (fun v => by fin_cases v <;> simp <;> omega) (fun v => by fin_cases v <;> simp <;> omega)
  have key := computeWeightSums_rel hm (ge := ge) (ge' := fun a b => ge (fin a) (fin b)) (y := fun i => fin (y i)) (y' := y)
    (fun _ _ => rfl)
    (w := fun i => ![Arith.ofInt I 1, fin (y i), fin (x i), Arith.mul I (fin (x i)) (fin (y i))])
    (w' := fun i => ![Arith.ofInt B 1, y i, x i, Arith.mul B (x i) (y i)]) (by
      intro i v
      fin_cases v
      · exact RelG.ofInt 1
      · exact hry i
      · exact hrx i
      · exact mul_relG rfl hg (hrx i) (hry i))
  unfold Arith.computeAijbijTerm
  refine key.bind ?_
  · rintro ⟨_, ws, _⟩ ⟨_, ws', _⟩ ⟨-, hws, -⟩
    have w0 : ∀ i, RelG 0 (ws i 0) (ws' i 0) := fun i => hws i 0
    have w1 : ∀ i, RelG gy (ws i 1) (ws' i 1) := fun i => hws i 1
    have w2 : ∀ i, RelG gx (ws i 2) (ws' i 2) := fun i => hws i 2
    have w3 : ∀ i, RelG (gx + gy) (ws i 3) (ws' i 3) := fun i => hws i 3
    refine ExRel.pure ?_
    refine sub_relG hg (imul_relG hg _ ?_) (imul_relG hg _ ?_)
    · refine add_relG hg (sub_relG hg (sub_relG hg ?_ ?_) ?_) (vsum_relG h hg w3)
      · have := vdot_relG h (g := gx + gy) (g' := 0) (by omega)
          (fun i => mul_relG (sqrt := sqrt) (sum := sum) (dot := dot) rfl hg (hrx i) (hry i)) w0
        rwa [add_zero] at this
      · exact vdot_relG h hg hrx w1
      · have := vdot_relG h (g := gy) (g' := gx) (by omega) hry w2
        rwa [add_comm] at this
    · refine add_relG hg (sub_relG hg (vdot_relG h hg (fun i => imul_relG (by omega) _ (hrx i)) hry)
        (vsum_relG h hg fun i => add_relG hg (mul_relG rfl hg (vsum_relG h (by omega) hrx) (hry i))
          (mul_relG (add_comm _ _) hg (vsum_relG h (by omega) hry) (hrx i))))
        (mul_relG rfl hg (vsum_relG h (by omega) hrx) (vsum_relG h (by omega) hry))

theorem mergesortTerms_relG (h : IsIeee64 sqrt sum dot) {gx gy : ℤ} (hg : gx + gy ≤ 1074) (hx0 : 0 ≤ gx) (hy0 : 0 ≤ gy)
    (ge : F64 → F64 → Bool) (argsort : (Fin n → F64) → Equiv.Perm (Fin n)) {x y : Fin n → ℚ}
    (hx : ∀ i, OnGrid gx (x i)) (hy : ∀ i, OnGrid gy (y i)) :
    ExRel (TermsRelG (gx + gy) gx gy)
      (Arith.mergesortTerms I ge argsort (fun i => fin (x i)) (fun i => fin (y i)))
      (Arith.mergesortTerms B (fun a b => ge (fin a) (fin b)) (fun v => argsort fun i => fin (v i)) x y) := by
  unfold Arith.mergesortTerms
  refine (aijbij_relG h hg hx0 hy0 (fun i => hx _) (fun i => hy _)).bind fun a a' ha => ?_
  refine (rowSums_relG (g := gx) (by omega) (fun i => .of_fin (hx _))).bind fun r r' hr => ?_
  refine (rowSums_relG (g := gy) (by omega) (fun i => .of_fin (hy _))).bind fun s s' hs => ?_
  refine ExRel.pure ?_
  have hsc : ∀ i, RelG gy (scatter (fun _ => Arith.ofInt I 0) (argsort fun i => fin (y ((argsort fun i => fin (x i)) i))) s i)
      (scatter (fun _ => Arith.ofInt B 0) (argsort fun i => fin (y ((argsort fun i => fin (x i)) i))) s' i) := by
    intro i
    rw [scatter_perm, scatter_perm]
    exact hs _
  exact ⟨ha, hr, vsum_relG h (by omega) hr, hsc, vsum_relG h (by omega) hsc⟩

/-! ### Variance terms -/

theorem varTerm_relG (h : IsIeee64 sqrt sum dot) {N : ℕ} (hn0 : 0 < n) (hN : n ≤ 2 ^ N) {x : Fin n → F64} {x' : Fin n → ℚ}
    {G : ℤ} (hg0 : 0 ≤ g) (hG : 2 * g + 3 * N + 156 ≤ G) (hG' : G ≤ 1074) (hx : ∀ i, RelG g (x i) (x' i)) :
    RelG G (Arith.varTerm I x) (Arith.varTerm B x') := by
  obtain ⟨⟨d1, d1'⟩, -⟩ := divisors false hn0 (by simp) hN
  unfold Arith.varTerm
  have hm := idiv_relG (sqrt := sqrt) (sum := sum) (dot := dot) (g' := g + N + 52) (vsum_relG h (by omega) hx) d1 d1' hg0
    le_rfl (by omega)
  have hd : ∀ i, RelG (g + N + 52) (Arith.sub I (x i) (Arith.idiv I (Arith.vsum I x) n))
      (Arith.sub B (x' i) (Arith.idiv B (Arith.vsum B x') n)) :=
    fun i => sub_relG (by omega) ((hx i).mono (by omega)) hm
  exact imul_relG hG' _ (idiv_relG (g := (g + N + 52) + (g + N + 52))
    (vsum_relG h (by omega) fun i => mul_relG rfl (by omega) (hd i) (hd i)) d1 d1' (by omega) (by omega) hG')

/-! ### Statistics -/

/-- The statistics are the same, or not finite. -/
structure StatsRel (r : Arith.StatsSqr F64) (r' : Arith.StatsSqr ℚ) : Prop where
  cov : r.cov = fin r'.cov ∨ ¬ r.cov.Finite
  varX : r.varX = fin r'.varX ∨ ¬ r.varX.Finite
  varY : r.varY = fin r'.varY ∨ ¬ r.varY.Finite
  corr : r.varX.Finite → r.varY.Finite → |round64 (r'.varX * r'.varY)| < 2 ^ 1024 →
    r.corr = fin r'.corr ∨ ¬ r.corr.Finite

theorem stats_relG (h : IsIeee64 sqrt sum dot) (bc : Bool) {N : ℕ} (hn0 : 0 < n) (hn : bc = true → 3 < n) (hN : n ≤ 2 ^ N)
    {g0 ga gb gA gB Gc GA GB : ℤ} {t : Arith.AllTerms F64 n} {t' : Arith.AllTerms ℚ n}
    (hc : TermsRelG g0 ga gb t.core t'.core) (hA : RelG gA t.aMeanProd t'.aMeanProd)
    (hB : RelG gB t.bMeanProd t'.bMeanProd) (h0 : 0 ≤ g0) (ha0 : 0 ≤ ga) (hb0 : 0 ≤ gb) (hA0 : 0 ≤ gA) (hB0 : 0 ≤ gB)
    (c1 : g0 + 2 * N + 104 ≤ Gc) (c2 : ga + gb + 4 * N + 104 ≤ Gc) (c3 : Gc ≤ 509)
    (a1 : gA + 2 * N + 104 ≤ GA) (a2 : ga + ga + 4 * N + 104 ≤ GA)
    (b1 : gB + 2 * N + 104 ≤ GB) (b2 : gb + gb + 4 * N + 104 ≤ GB) (ab : GA + GB ≤ 1074) :
    StatsRel (Arith.statsFromTerms I bc t) (Arith.statsFromTerms B bc t') ∧
      OnGrid GA (Arith.statsFromTerms B bc t').varX ∧ OnGrid GB (Arith.statsFromTerms B bc t').varY := by
  have cov := fromTerms_relG h bc hn0 hn hN hc.meanProd hc.aAxis hc.aTotal hc.bAxis hc.bTotal h0 ha0 hb0 c1 c2 (by omega)
  have vx := fromTerms_relG h bc hn0 hn hN hA hc.aAxis hc.aTotal hc.aAxis hc.aTotal hA0 ha0 ha0 a1 a2 (by omega)
  have vy := fromTerms_relG h bc hn0 hn hN hB hc.bAxis hc.bTotal hc.bAxis hc.bTotal hB0 hb0 hb0 b1 b2 (by omega)
  refine ⟨⟨cov.eq, vx.eq, vy.eq, fun fx fy hv => ?_⟩, vx.grid, vy.grid⟩
  have key := corr_relG h cov vx.grid vy.grid hv ab c3
  rw [← vx.eq.resolve_right (not_not.2 fx), ← vy.eq.resolve_right (not_not.2 fy)] at key
  exact key

theorem naive_relG (h : IsIeee64 sqrt sum dot) (bc : Bool) {N : ℕ} (hn0 : 0 < n) (hn : bc = true → 3 < n) (hN : n ≤ 2 ^ N)
    {q : ℕ} {gx gy : ℤ} (hx0 : 0 ≤ gx) (hy0 : 0 ≤ gy) (hg : gx + gy + 4 * N + 208 ≤ 509) {x : Fin n → Fin p → ℚ}
    {y : Fin n → Fin q → ℚ} (hx : ∀ i k, OnGrid gx (x i k)) (hy : ∀ i k, OnGrid gy (y i k)) :
    StatsRel (Arith.naiveStats I bc (fun i k => fin (x i k)) (fun i k => fin (y i k))) (Arith.naiveStats B bc x y) ∧
      OnGrid (2 * gx + 4 * N + 208) (Arith.naiveStats B bc x y).varX ∧
      OnGrid (2 * gy + 4 * N + 208) (Arith.naiveStats B bc x y).varY := by
  have dx := cdist_relG h (g := gx) (by omega) hx0 (fun i k => RelG.of_fin (hx i k)) (fun i k => RelG.of_fin (hx i k))
  have dy := cdist_relG h (g := gy) (by omega) hy0 (fun i k => RelG.of_fin (hy i k)) (fun i k => RelG.of_fin (hy i k))
  refine stats_relG h bc hn0 hn hN (g0 := gx + 52 + (gy + 52)) (ga := gx + 52) (gb := gy + 52) (gA := gx + 52 + (gx + 52))
    (gB := gy + 52 + (gy + 52)) (Gc := gx + gy + 4 * N + 208) (GA := 2 * gx + 4 * N + 208) (GB := 2 * gy + 4 * N + 208)
    ⟨?_, ?_, ?_, ?_, ?_⟩ ?_ ?_ (by omega) (by omega) (by omega) (by omega) (by omega) (by omega) (by omega) (by omega)
    (by omega) (by omega) (by omega) (by omega) (by omega)
  · exact mdot_relG h (by omega) dx dy
  · exact fun i => vsum_relG h (by omega) (dx i)
  · exact vsum_relG h (by omega) fun i => vsum_relG h (by omega) (dx i)
  · exact fun i => vsum_relG h (by omega) (dy i)
  · exact vsum_relG h (by omega) fun i => vsum_relG h (by omega) (dy i)
  · exact mdot_relG h (by omega) dx dx
  · exact mdot_relG h (by omega) dy dy

theorem fast_relG (h : IsIeee64 sqrt sum dot) (bc : Bool) {N : ℕ} (hn0 : 0 < n) (hn : bc = true → 3 < n) (hN : n ≤ 2 ^ N)
    {gx gy : ℤ} (hx0 : 0 ≤ gx) (hy0 : 0 ≤ gy) (hc : gx + gy + 4 * N + 104 ≤ 509) (hg : 2 * gx + 2 * gy + 10 * N + 520 ≤ 1074)
    {x y : Fin n → ℚ} (hx : ∀ i, OnGrid gx (x i)) (hy : ∀ i, OnGrid gy (y i)) {t : CoreTerms F64 n} {t' : CoreTerms ℚ n}
    (ht : TermsRelG (gx + gy) gx gy t t') :
    StatsRel (Arith.statsFromTerms I bc ⟨t, Arith.varTerm I fun i => fin (x i), Arith.varTerm I fun i => fin (y i)⟩)
      (Arith.statsFromTerms B bc ⟨t', Arith.varTerm B x, Arith.varTerm B y⟩) ∧
      OnGrid (2 * gx + 5 * N + 260) (Arith.statsFromTerms B bc ⟨t', Arith.varTerm B x, Arith.varTerm B y⟩).varX ∧
      OnGrid (2 * gy + 5 * N + 260) (Arith.statsFromTerms B bc ⟨t', Arith.varTerm B x, Arith.varTerm B y⟩).varY := by
  refine stats_relG h bc hn0 hn hN (gA := 2 * gx + 3 * N + 156) (gB := 2 * gy + 3 * N + 156) (Gc := gx + gy + 4 * N + 104)
    (GA := 2 * gx + 5 * N + 260) (GB := 2 * gy + 5 * N + 260) ht
    (varTerm_relG h hn0 hN hx0 le_rfl (by omega) fun i => .of_fin (hx i))
    (varTerm_relG h hn0 hN hy0 le_rfl (by omega) fun i => .of_fin (hy i))
    (by omega) (by omega) (by omega) (by omega) (by omega) (by omega) (by omega) (by omega)
    (by omega) (by omega) (by omega) (by omega) (by omega)

/-! ### Energy distance -/

theorem flatAll_relG {a : Fin n → Fin m → F64} {b : Fin n → Fin m → ℚ} (hab : ∀ i j, RelG g (a i j) (b i j)) :
    List.Forall₂ (RelG g) (Arith.flatAll a) (Arith.flatAll b) := by
  refine forall₂_flatMap _ fun i => ?_
  rw [List.forall₂_map_left_iff, List.forall₂_map_right_iff, List.forall₂_same]
  exact fun j _ => hab i j

theorem flatUpper_relG {a : Fin n → Fin n → F64} {b : Fin n → Fin n → ℚ} (hab : ∀ i j, RelG g (a i j) (b i j)) :
    List.Forall₂ (RelG g) (Arith.flatUpper a) (Arith.flatUpper b) := by
  refine forall₂_flatMap _ fun i => ?_
  rw [List.forall₂_map_left_iff, List.forall₂_map_right_iff, List.forall₂_same]
  exact fun j _ => hab i j

theorem flatAll_length {R : Type} (d : Fin n → Fin m → R) : (Arith.flatAll d).length = n * m := by
  simp [Arith.flatAll, List.length_flatMap]

theorem flatUpper_length_le {R : Type} (d : Fin n → Fin n → R) : (Arith.flatUpper d).length ≤ n * n := by
  rw [← flatAll_length d]
  refine List.Sublist.length_le ?_
  unfold Arith.flatUpper Arith.flatAll
  exact List.Sublist.flatMap_right _ fun i _ => List.filter_sublist.map _

theorem mean_relG (h : IsIeee64 sqrt sum dot) {N : ℕ} {l : List F64} {l' : List ℚ} (hl : List.Forall₂ (RelG g) l l')
    (h0 : l ≠ []) (hN : l.length ≤ 2 ^ N) (hg0 : 0 ≤ g) (hg : g + N + 52 ≤ g') (hg' : g' ≤ 1074) :
    RelG g' (Arith.mean I l) (Arith.mean B l') := by
  unfold Arith.mean
  rw [← hl.length_eq]
  refine idiv_relG (M := N) (sum_relG h (by omega) hl) ?_ ?_ hg0 hg hg'
  · exact_mod_cast (List.length_pos_iff.2 h0).ne'
  · rw [abs_of_nonneg (by positivity)]
    exact_mod_cast hN

/-- The energy distance does not underflow. -/
theorem energy_relG (h : IsIeee64 sqrt sum dot) (s : EstStat) {N : ℕ} (hn0 : 0 < n) (hm0 : 0 < m)
    (hs : s = .u → 1 < n ∧ 1 < m) (hn : n ≤ 2 ^ N) (hm : m ≤ 2 ^ N) {G : ℤ} (hg0 : 0 ≤ g) (hg : 2 * g ≤ 1074)
    (hG : g + 2 * N + 104 ≤ G) (hG' : G ≤ 1074) {x : Fin n → Fin p → ℚ} {y : Fin m → Fin p → ℚ}
    (hx : ∀ i k, OnGrid g (x i k)) (hy : ∀ i k, OnGrid g (y i k)) :
    RelG G (Arith.energyDistance I s (fun i k => fin (x i k)) (fun i k => fin (y i k))) (Arith.energyDistance B s x y) := by
  have rx : ∀ i k, RelG g (fin (x i k)) (x i k) := fun i k => .of_fin (hx i k)
  have ry : ∀ i k, RelG g (fin (y i k)) (y i k) := fun i k => .of_fin (hy i k)
  have hsq : 2 ^ (2 * N) = 2 ^ N * 2 ^ N := by ring
  have within : ∀ {k : ℕ} {a : Fin k → Fin k → F64} {b : Fin k → Fin k → ℚ}, 0 < k → (s = .u → 1 < k) → k ≤ 2 ^ N →
      (∀ i j, RelG (g + 52) (a i j) (b i j)) →
      RelG G (Arith.mean I (match (generalizing := false) s with | .u => Arith.flatUpper a | .v => Arith.flatAll a))
        (Arith.mean B (match (generalizing := false) s with | .u => Arith.flatUpper b | .v => Arith.flatAll b)) := by
    intro k a b hk0 hk1 hkN hab
    cases s with
    | v =>
      refine mean_relG h (N := 2 * N) (flatAll_relG hab) ?_ ?_ (by omega) (by push_cast; omega) hG'
      · exact List.ne_nil_of_mem ((mem_flatAll _ _).2 ⟨⟨0, hk0⟩, ⟨0, hk0⟩, rfl⟩)
      · show (Arith.flatAll a).length ≤ _
        rw [flatAll_length, hsq]
        exact Nat.mul_le_mul hkN hkN
    | u =>
      refine mean_relG h (N := 2 * N) (flatUpper_relG hab) ?_ ?_ (by omega) (by push_cast; omega) hG'
      · exact List.ne_nil_of_mem ((mem_flatUpper _ _).2 ⟨⟨0, hk0⟩, ⟨1, hk1 rfl⟩, by simp, rfl⟩)
      · refine (flatUpper_length_le a).trans ?_
        rw [hsq]
        exact Nat.mul_le_mul hkN hkN
  unfold Arith.energyDistance Arith.energyFromMatrices
  refine sub_relG hG' (sub_relG hG' (imul_relG hG' _ ?_) ?_) ?_
  · refine mean_relG h (N := 2 * N) (flatAll_relG (cdist_relG h hg hg0 rx ry)) ?_ ?_ (by omega) (by push_cast; omega) hG'
    · exact List.ne_nil_of_mem ((mem_flatAll _ _).2 ⟨⟨0, hn0⟩, ⟨0, hm0⟩, rfl⟩)
    · rw [flatAll_length, hsq]
      exact Nat.mul_le_mul hn hm
  · exact within hn0 (fun e => (hs e).1) hn (cdist_relG h hg hg0 rx rx)
  · exact within hm0 (fun e => (hs e).2) hm (cdist_relG h hg hg0 ry ry)

/-- The statistic of the energy test does not underflow. -/
theorem energyTest_relG (h : IsIeee64 sqrt sum dot) (s : EstStat) {N : ℕ} (hn0 : 0 < n) (hm0 : 0 < m)
    (hs : s = .u → 1 < n ∧ 1 < m) (hn : n ≤ 2 ^ N) (hm : m ≤ 2 ^ N) {G : ℤ} (hg0 : 0 ≤ g) (hg : 2 * g ≤ 1074)
    (hG : g + 3 * N + 157 ≤ G) (hG' : G ≤ 1074) {x : Fin n → Fin p → ℚ} {y : Fin m → Fin p → ℚ}
    (hx : ∀ i k, OnGrid g (x i k)) (hy : ∀ i k, OnGrid g (y i k)) :
    RelG G (Arith.energyTestStatistic I s (fun i k => fin (x i k)) (fun i k => fin (y i k)))
      (Arith.energyTestStatistic B s x y) := by
  unfold Arith.energyTestStatistic
  have hc : RelG (N + 53) (Arith.idiv I (Arith.ofInt I ((n : ℤ) * m)) ((n : ℤ) + m))
      (Arith.idiv B (Arith.ofInt B ((n : ℤ) * m)) ((n : ℤ) + m)) := by
    refine idiv_relG (M := N + 1) (RelG.ofInt _) (by omega) ?_ le_rfl (by push_cast; omega) (by omega)
    have h1 : (n : ℤ) ≤ 2 ^ N := by exact_mod_cast hn
    have h2 : (m : ℤ) ≤ 2 ^ N := by exact_mod_cast hm
    rw [abs_of_nonneg (by positivity), pow_succ]
    omega
  exact (mul_relG (sqrt := sqrt) (sum := sum) (dot := dot) rfl (by omega) hc
    (energy_relG h s hn0 hm0 hs hn hm hg0 hg (G := g + 2 * N + 104) le_rfl (by omega) hx hy)).mono (by omega)

end Dcor

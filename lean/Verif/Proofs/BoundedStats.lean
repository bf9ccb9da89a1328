/-
The methods do not overflow on samples of moderate size.
-/
import Verif.Proofs.Bounded64
import Verif.Proofs.ErrorMerge
import Verif.Proofs.TransferFast

namespace Dcor

open F64

variable {sqrt : F64 → F64} {sum : List F64 → F64} {dot : List (F64 × F64) → F64} {n m p N : ℕ}

local notation "I" => ieee64 sqrt sum dot

theorem pow53 {M : ℕ} (h : M ≤ 53) : 2 ^ M ≤ 2 ^ 53 := Nat.pow_le_pow_right (by norm_num) h

theorem ofInt_bd {k : ℤ} {M K : ℕ} (hk : |k| ≤ 2 ^ M) (hM : M ≤ 53) (hK : M ≤ K) : Bd 1 K (F64.round (k : ℚ)) := by
  have hk' : k.natAbs ≤ 2 ^ M := by zify; exact hk
  have h1 : Bd k.natAbs 0 (F64.round (k : ℚ)) := by
    refine bd_round (hk'.trans (pow53 hM)) (by norm_num) ?_
    rw [pow_zero, mul_one, Nat.cast_natAbs, Int.cast_abs]
  exact h1.one hk' (by omega)

theorem add_bd {K K' : ℕ} {a b : F64} (ha : Bd 1 K a) (hb : Bd 1 K b) (hK : K + 1 ≤ K') (h : K' ≤ 970) :
    Bd 1 K' (Arith.add I a b) := (ha.add hb (by norm_num) (by omega)).one (M := 1) (by norm_num) hK

theorem sub_bd {K K' : ℕ} {a b : F64} (ha : Bd 1 K a) (hb : Bd 1 K b) (hK : K + 1 ≤ K') (h : K' ≤ 970) :
    Bd 1 K' (Arith.sub I a b) := (ha.sub hb (by norm_num) (by omega)).one (M := 1) (by norm_num) hK

theorem mul_bd {K L K' : ℕ} {a b : F64} (ha : Bd 1 K a) (hb : Bd 1 L b) (hK : K + L ≤ K') (h : K' ≤ 970) :
    Bd 1 K' (Arith.mul I a b) := (ha.mul hb (by norm_num) (by omega)).mono le_rfl hK

theorem imul_bd {K M K' : ℕ} {a : F64} {k : ℤ} (hk : |k| ≤ 2 ^ M) (hM : M ≤ 53) (ha : Bd 1 K a) (hK : K + M ≤ K')
    (h : K' ≤ 970) : Bd 1 K' (Arith.imul I k a) := ha.imul hk hM hK h

theorem idiv_bd {K M : ℕ} {a : F64} {k : ℤ} (hk0 : k ≠ 0) (hk : |k| ≤ 2 ^ M) (hM : M ≤ 1023) (ha : Bd 1 K a)
    (h : K ≤ 970) : Bd 1 K (Arith.idiv I a k) := ha.idiv hk0 hk hM (by norm_num) h

theorem sum_bd (h : IsIeee64 sqrt sum dot) {l : List F64} {K K' M : ℕ} (hl : ∀ a ∈ l, Bd 1 K a) (hN : l.length ≤ 2 ^ M)
    (hM : M ≤ 53) (hK : K + M ≤ K') (hK' : K' ≤ 970) : Bd 1 K' (sum l) := by
  have := Bd.sums (by omega) (h.sum l) hl (by rw [mul_one]; exact hN.trans (pow53 hM))
  rw [mul_one] at this
  exact this.one hN hK

theorem vsum_bd (h : IsIeee64 sqrt sum dot) {v : Fin n → F64} {K K' : ℕ} (hv : ∀ i, Bd 1 K (v i)) (hN : n ≤ 2 ^ N)
    (hM : N ≤ 53) (hK : K + N ≤ K') (hK' : K' ≤ 970) : Bd 1 K' (Arith.vsum I v) := by
  refine sum_bd h (fun a ha => ?_) (by rwa [List.length_ofFn]) hM hK hK'
  obtain ⟨i, rfl⟩ := (List.mem_ofFn' _ _).1 ha
  exact hv i

theorem vdot_bd (h : IsIeee64 sqrt sum dot) {v w : Fin n → F64} {K L K' : ℕ} (hv : ∀ i, Bd 1 K (v i))
    (hw : ∀ i, Bd 1 L (w i)) (hN : n ≤ 2 ^ N) (hM : N ≤ 53) (hK : K + L + N ≤ K') (hK' : K' ≤ 970) :
    Bd 1 K' (Arith.vdot I v w) := by
  have := Bd.dots (w := 1) (w' := 1) (K := K) (K' := L) (by omega) (h.dot (List.ofFn fun i => (v i, w i))) (fun p hp => by
    obtain ⟨i, rfl⟩ := (List.mem_ofFn' _ _).1 hp
    exact ⟨hv i, hw i⟩) (by rw [List.length_ofFn, mul_one, mul_one]; exact hN.trans (pow53 hM))
  rw [List.length_ofFn, mul_one, mul_one] at this
  exact this.one hN hK

theorem mdot_bd (h : IsIeee64 sqrt sum dot) {v w : Fin n → Fin n → F64} {K L K' : ℕ} (hv : ∀ i j, Bd 1 K (v i j))
    (hw : ∀ i j, Bd 1 L (w i j)) (hN : n ≤ 2 ^ N) (hM : N ≤ 26) (hK : K + L + 2 * N ≤ K') (hK' : K' ≤ 970) :
    Bd 1 K' (Arith.mdot I v w) := by
  have hl : ((List.finRange n).flatMap fun i => (List.finRange n).map fun j => (v i j, w i j)).length = n * n := by
    simp [List.length_flatMap]
  have hN2 : n * n ≤ 2 ^ (2 * N) := by
    rw [two_mul, pow_add]
    exact Nat.mul_le_mul hN hN
  have := Bd.dots (w := 1) (w' := 1) (K := K) (K' := L) (by omega) (h.dot ((List.finRange n).flatMap fun i => (List.finRange n).map
    fun j => (v i j, w i j))) (fun p hp => by
    simp only [List.mem_flatMap, List.mem_map] at hp
    obtain ⟨i, -, j, -, rfl⟩ := hp
    exact ⟨hv i j, hw i j⟩) (by rw [hl, mul_one, mul_one]; exact hN2.trans (pow53 (by omega)))
  rw [hl, mul_one, mul_one] at this
  exact this.one hN2 hK

theorem cumsum_bd' {v : Fin n → F64} {K : ℕ} (hv : ∀ i, Bd 1 K (v i)) (hn : n ≤ 2 ^ 53) (hK : K ≤ 970) (k : ℕ)
    (hk : k < n) : Bd (k + 1) K (Arith.cumsumAt I v k hk) := by
  induction k with
  | zero => exact hv _
  | succ k ih => exact (ih (by omega)).add (hv _) (by omega) hK

theorem cumsum_bd {v : Fin n → F64} {K K' : ℕ} (hv : ∀ i, Bd 1 K (v i)) (hN : n ≤ 2 ^ N) (hM : N ≤ 53)
    (hK : K + N ≤ K') (hK' : K' ≤ 970) (i : Fin n) : Bd 1 K' (Arith.cumsum I v i) :=
  (cumsum_bd' hv (hN.trans (pow53 hM)) (by omega) i i.2).one (show (i : ℕ) + 1 ≤ 2 ^ N by omega) hK

theorem cdist_bd (h : IsIeee64 sqrt sum dot) {x : Fin n → Fin p → F64} {y : Fin m → Fin p → F64} {K K' : ℕ}
    (hx : ∀ i k, Bd 1 K (x i k)) (hy : ∀ i k, Bd 1 K (y i k)) (hp : p ≤ 2 ^ N) (hM : N ≤ 53) (hK : 2 * K + 2 * N + 2 ≤ 970)
    (hK' : K + N + 2 ≤ K') (i : Fin n) (j : Fin m) : Bd 1 K' (Arith.cdist I x y i j) := by
  have hd : ∀ k, Bd 1 (K + 1) (Arith.sub I (x i k) (y j k)) := fun k => sub_bd (hx i k) (hy j k) le_rfl (by omega)
  have hs : Bd 1 (2 * (K + N + 1)) (Arith.vsum I fun k => Arith.mul I (Arith.sub I (x i k) (y j k))
      (Arith.sub I (x i k) (y j k))) :=
    vsum_bd h (fun k => mul_bd (hd k) (hd k) le_rfl (by omega)) hp hM (by omega) (by omega)
  have nn : NN (Arith.vsum I fun k => Arith.mul I (Arith.sub I (x i k) (y j k)) (Arith.sub I (x i k) (y j k))) := by
    refine (h.sum _).nn fun a ha => ?_
    obtain ⟨k, rfl⟩ := (List.mem_ofFn' _ _).1 ha
    exact mul_self_nn _
  exact (hs.sqrt nn (h.sqrt _)).mono le_rfl (by omega)

/-- Bounded terms. -/
structure TermsBd (K0 A A' B B' : ℕ) (t : CoreTerms F64 n) : Prop where
  meanProd : Bd 1 K0 t.meanProd
  aAxis : ∀ i, Bd 1 A (t.aAxis i)
  aTotal : Bd 1 A' t.aTotal
  bAxis : ∀ i, Bd 1 B (t.bAxis i)
  bTotal : Bd 1 B' t.bTotal

theorem fromTerms_bd (h : IsIeee64 sqrt sum dot) (bc : Bool) (hn0 : 0 < n) (hn : bc = true → 3 < n)
    (hN : n ≤ 2 ^ N) (hM : N ≤ 26) {K0 A A' B B' E : ℕ} {mp aT bT : F64} {a b : Fin n → F64} (hmp : Bd 1 K0 mp)
    (ha : ∀ i, Bd 1 A (a i)) (haT : Bd 1 A' aT) (hb : ∀ i, Bd 1 B (b i)) (hbT : Bd 1 B' bT) (h0 : K0 + 3 ≤ E)
    (hab : A + B + N + 3 ≤ E) (hab' : A' + B' + 3 ≤ E) (hE : E ≤ 970) : Bd 1 E (Arith.fromTerms I bc mp a aT b bT) := by
  obtain ⟨⟨d1, d1'⟩, ⟨d2, d2'⟩, ⟨d3, d3'⟩, d4, d4'⟩ := divisors bc hn0 hn hN
  have first := idiv_bd (sqrt := sqrt) (sum := sum) (dot := dot) (K := E - 3) d2 d2' (by omega)
    (idiv_bd (sqrt := sqrt) (sum := sum) (dot := dot) d1 d1' (by omega) (hmp.mono le_rfl (by omega)) (by omega)) (by omega)
  have second := idiv_bd (sqrt := sqrt) (sum := sum) (dot := dot) (K := E - 3) d3 d3' (by omega)
    (vdot_bd h (fun i => idiv_bd (sqrt := sqrt) (sum := sum) (dot := dot) d1 d1' (by omega) (ha i) (by omega)) hb hN
      (by omega) (by omega) (by omega)) (by omega)
  have third := idiv_bd (sqrt := sqrt) (sum := sum) (dot := dot) (K := E - 3) d4 d4' (by omega)
    (mul_bd (sqrt := sqrt) (sum := sum) (dot := dot) (idiv_bd (sqrt := sqrt) (sum := sum) (dot := dot) d1 d1' (by omega)
      haT (by omega)) hbT (by omega) (by omega)) (by omega)
  exact add_bd (K := E - 1) (sub_bd (K := E - 2) (first.mono le_rfl (by omega))
    (imul_bd (M := 1) (by norm_num) (by norm_num) second (by omega) (by omega)) (by omega) (by omega))
    (third.mono le_rfl (by omega)) (by omega) hE

/-- Bounds of the covariance and the variances. -/
structure StatsBd (C X Y : ℕ) (r : Arith.StatsSqr F64) : Prop where
  cov : Bd 1 C r.cov
  varX : Bd 1 X r.varX
  varY : Bd 1 Y r.varY

theorem stats_bd (h : IsIeee64 sqrt sum dot) (bc : Bool) (hn0 : 0 < n) (hn : bc = true → 3 < n) (hN : n ≤ 2 ^ N)
    (hM : N ≤ 26) {K0 A A' B B' KA KB C X Y : ℕ} {t : Arith.AllTerms F64 n} (ht : TermsBd K0 A A' B B' t.core)
    (hA : Bd 1 KA t.aMeanProd) (hB : Bd 1 KB t.bMeanProd) (c0 : K0 + 3 ≤ C) (c1 : A + B + N + 3 ≤ C)
    (c2 : A' + B' + 3 ≤ C) (x0 : KA + 3 ≤ X) (x1 : A + A + N + 3 ≤ X) (x2 : A' + A' + 3 ≤ X) (y0 : KB + 3 ≤ Y)
    (y1 : B + B + N + 3 ≤ Y) (y2 : B' + B' + 3 ≤ Y) (hC : C ≤ 970) (hX : X ≤ 970) (hY : Y ≤ 970) :
    StatsBd C X Y (Arith.statsFromTerms I bc t) where
  cov := fromTerms_bd h bc hn0 hn hN hM ht.meanProd ht.aAxis ht.aTotal ht.bAxis ht.bTotal c0 c1 c2 hC
  varX := fromTerms_bd h bc hn0 hn hN hM hA ht.aAxis ht.aTotal ht.aAxis ht.aTotal x0 x1 x2 hX
  varY := fromTerms_bd h bc hn0 hn hN hM hB ht.bAxis ht.bTotal ht.bAxis ht.bTotal y0 y1 y2 hY

theorem naive_bd (h : IsIeee64 sqrt sum dot) (bc : Bool) (hn0 : 0 < n) (hn : bc = true → 3 < n) (hN : n ≤ 2 ^ N)
    (hM : N ≤ 26) {q : ℕ} (hp : p ≤ 2 ^ N) (hq : q ≤ 2 ^ N) {Kx Ky : ℕ} {x : Fin n → Fin p → F64} {y : Fin n → Fin q → F64}
    (hx : ∀ i k, Bd 1 Kx (x i k)) (hy : ∀ i k, Bd 1 Ky (y i k)) (hX : 2 * Kx + 6 * N + 7 ≤ 970)
    (hY : 2 * Ky + 6 * N + 7 ≤ 970) :
    StatsBd (Kx + Ky + 6 * N + 7) (2 * Kx + 6 * N + 7) (2 * Ky + 6 * N + 7) (Arith.naiveStats I bc x y) := by
  have dx := cdist_bd h hx hx hp (by omega) (by omega) (le_refl (Kx + N + 2))
  have dy := cdist_bd h hy hy hq (by omega) (by omega) (le_refl (Ky + N + 2))
  have ax : ∀ i, Bd 1 (Kx + 2 * N + 2) (Arith.axisSum I (Arith.euclidean I x) i) :=
    fun i => vsum_bd h (dx i) hN (by omega) (by omega) (by omega)
  have ay : ∀ i, Bd 1 (Ky + 2 * N + 2) (Arith.axisSum I (Arith.euclidean I y) i) :=
    fun i => vsum_bd h (dy i) hN (by omega) (by omega) (by omega)
  exact stats_bd h bc hn0 hn hN hM (t := Arith.naiveTerms I (Arith.euclidean I x) (Arith.euclidean I y))
    (K0 := Kx + Ky + 4 * N + 4) (A := Kx + 2 * N + 2) (A' := Kx + 3 * N + 2) (B := Ky + 2 * N + 2) (B' := Ky + 3 * N + 2)
    (KA := 2 * Kx + 4 * N + 4) (KB := 2 * Ky + 4 * N + 4)
    ⟨mdot_bd h dx dy hN hM (by omega) (by omega), ax, vsum_bd h ax hN (by omega) (by omega) (by omega), ay,
      vsum_bd h ay hN (by omega) (by omega) (by omega)⟩ (mdot_bd h dx dx hN hM (by omega) (by omega))
    (mdot_bd h dy dy hN hM (by omega) (by omega)) (by omega) (by omega) (by omega) (by omega) (by omega) (by omega)
    (by omega) (by omega) (by omega) (by omega) hX hY

/-! ### AVL -/

theorem addRel_bd (h : IsIeee64 sqrt sum dot) {K : ℕ} (hK : K ≤ 970) :
    Arith.AddRel I (monoidArith ℕ) (fun a w => w ≤ 2 ^ 53 → Bd w K a) where
  zero _ := ⟨0, ofInt_zero, by simp⟩
  add a b w w' ha hb hw := by
    have hw' : w + w' ≤ 2 ^ 53 := hw
    exact (ha (by omega)).add (hb (by omega)) hw' hK
  sum l l' hl hw := by
    have hw' : l'.sum ≤ 2 ^ 53 := hw
    have key : ∀ L s, Sums L s → ∀ L', List.Forall₂ (fun a w => w ≤ 2 ^ 53 → Bd w K a) L L' → L'.sum ≤ 2 ^ 53 →
        Bd L'.sum K s := by
      intro L s hs
      induction hs with
      | nil =>
        intro L' hL _
        rw [List.forall₂_nil_left_iff.1 hL]
        exact ⟨0, rfl, by simp⟩
      | single a =>
        intro L' hL hw
        obtain ⟨w, L'', h1, h2, rfl⟩ := List.forall₂_cons_left_iff.1 hL
        rw [List.forall₂_nil_left_iff.1 h2] at hw ⊢
        simpa using h1 (by simpa using hw)
      | @add L1 L2 _ _ _ _ _ _ ih ih' =>
        intro L' hL hw
        have e := List.take_append_drop L1.length L'
        have h1 := List.forall₂_take L1.length hL
        have h2 := List.forall₂_drop L1.length hL
        rw [List.take_left] at h1
        rw [List.drop_left] at h2
        rw [← e, List.sum_append] at hw ⊢
        exact (ih _ h1 (by omega)).add (ih' _ h2 (by omega)) hw hK
      | perm _ hp ih =>
        intro L' hL hw
        obtain ⟨L'', hL'', hp'⟩ := List.perm_comp_forall₂ hp hL
        rw [← hp'.sum_eq] at hw ⊢
        exact ih _ hL'' hw
    exact key l _ (h.sum l) l' hl hw'

theorem partShape_bd (h : IsIeee64 sqrt sum dot) (hN : n ≤ 2 ^ N) (hM : N ≤ 26) (σ τ : Equiv.Perm (Fin n)) {K K' : ℕ}
    {c d : Fin n → F64} (hc : ∀ i, Bd 1 K (c i)) (hd : ∀ i, Bd 1 (K + N) (d i)) (hK : K + N + 5 ≤ K') (hK' : K' ≤ 970)
    (i : Fin n) : Bd 1 K' (Arith.partShape I σ τ c d i) := by
  have two : |(2 : ℤ)| ≤ 2 ^ 1 := by norm_num
  have four : |(4 : ℤ)| ≤ 2 ^ 2 := by norm_num
  have hcs : ∀ i, Bd 1 (K + N) (c i) := fun i => (hc i).mono le_rfl (by omega)
  unfold Arith.partShape
  refine add_bd (K := K + N + 4) (sub_bd (K := K + N + 3) (sub_bd (K := K + N + 2) ((sub_bd (K := K + N)
    (vsum_bd h hc hN (by omega) le_rfl (by omega)) (hcs _) le_rfl (by omega)).mono le_rfl (by omega))
    (imul_bd two (by norm_num) (sub_bd (cumsum_bd (fun k => hc _) hN (by omega) le_rfl (by omega) _) (hcs _) le_rfl
      (by omega)) (by omega) (by omega)) (by omega) (by omega))
    ((imul_bd two (by norm_num) (sub_bd (cumsum_bd hc hN (by omega) le_rfl (by omega) _) (hcs _) le_rfl
      (by omega)) le_rfl (by omega)).mono le_rfl (by omega)) (by omega) (by omega))
    ((imul_bd four (by norm_num) (hd _) le_rfl (by omega)).mono le_rfl (by omega)) (by omega) hK'

theorem rank_le (hN : n ≤ 2 ^ N) (i : Fin n) : |((i : ℕ) : ℤ)| ≤ 2 ^ N := by
  have h1 : (n : ℤ) ≤ 2 ^ N := by exact_mod_cast hN
  rw [abs_of_nonneg (by positivity)]
  omega

theorem axisShape_bd (h : IsIeee64 sqrt sum dot) (hN : n ≤ 2 ^ N) (hM : N ≤ 26) (σ : Equiv.Perm (Fin n)) {K : ℕ}
    {x : Fin n → F64} (hx : ∀ i, Bd 1 K (x i)) (hK : K + N + 3 ≤ 970) (i : Fin n) :
    Bd 1 (K + N + 3) (Arith.axisShape I σ x i) := by
  have h1 : (n : ℤ) ≤ 2 ^ N := by exact_mod_cast hN
  have hr : |2 * (((σ.symm i : Fin n) : ℕ) : ℤ) - n| ≤ 2 ^ N := by
    have := (σ.symm i).2
    rw [abs_le]
    constructor <;> omega
  unfold Arith.axisShape
  exact sub_bd (K := K + N + 2) ((add_bd (K := K + N) (vsum_bd h hx hN (by omega) le_rfl (by omega))
    (imul_bd hr (by omega) (hx _) le_rfl (by omega)) le_rfl (by omega)).mono le_rfl (by omega))
    (imul_bd (M := 1) (by norm_num) (by norm_num) (sub_bd (K := K + N) (cumsum_bd (fun k => hx _) hN (by omega) le_rfl (by omega) _)
      ((hx _).mono le_rfl (by omega)) le_rfl (by omega)) (by omega) (by omega)) (by omega) (by omega)

theorem totalShape_bd (h : IsIeee64 sqrt sum dot) (hN : n ≤ 2 ^ N) (hM : N ≤ 26) (σ : Equiv.Perm (Fin n)) {K : ℕ}
    {x : Fin n → F64} (hx : ∀ i, Bd 1 K (x i)) (hK : K + 2 * N + 3 ≤ 970) :
    Bd 1 (K + 2 * N + 3) (Arith.totalShape I σ x) := by
  unfold Arith.totalShape
  exact sub_bd (K := K + 2 * N + 2) (imul_bd (M := 1) (by norm_num) (by norm_num)
      (vsum_bd h (fun i => imul_bd (rank_le hN _) (by omega) (hx i) le_rfl (by omega)) hN (by omega) (le_refl (K + N + N))
        (by omega)) (by omega) (by omega))
    (imul_bd (M := 1) (by norm_num) (by norm_num) (vsum_bd h (fun i => sub_bd (K := K + N)
      (cumsum_bd (fun k => hx _) hN (by omega) le_rfl (by omega) _)
      ((hx _).mono le_rfl (by omega)) le_rfl (by omega)) hN (by omega) (le_refl (K + N + 1 + N)) (by omega)) (by omega)
      (by omega)) (by omega) (by omega)

theorem prodShape_bd (h : IsIeee64 sqrt sum dot) (hN : n ≤ 2 ^ N) (hM : N ≤ 26) (σ τ : Equiv.Perm (Fin n)) {Kx Ky : ℕ}
    {D : (Fin n → F64) → Fin n → F64}
    (hD : ∀ K ≤ 970, ∀ c, (∀ i, Bd 1 K (c i)) → ∀ i, Bd 1 (K + N) (D c i))
    {x y : Fin n → F64} (hx : ∀ i, Bd 1 Kx (x i)) (hy : ∀ i, Bd 1 Ky (y i)) (hK : Kx + Ky + 2 * N + 8 ≤ 970) :
    Bd 1 (Kx + Ky + 2 * N + 8) (Arith.prodShape I σ τ D x y) := by
  have hp : ∀ K, K + N + 5 ≤ 970 → ∀ c, (∀ i, Bd 1 K (c i)) → ∀ i, Bd 1 (K + N + 5) (Arith.partShape I σ τ c (D c) i) :=
    fun K hK c hc => partShape_bd h hN hM σ τ hc (hD K (by omega) c hc) le_rfl hK
  have hxy : ∀ i, Bd 1 (Kx + Ky) (Arith.mul I (x i) (y i)) := fun i => mul_bd (hx i) (hy i) le_rfl (by omega)
  unfold Arith.prodShape
  refine vsum_bd h (K := Kx + Ky + N + 8) (fun i => ?_) hN (by omega) (by omega) hK
  refine sub_bd (K := Kx + Ky + N + 7) (sub_bd (K := Kx + Ky + N + 6) (add_bd (K := Kx + Ky + N + 5) ?_ ?_ le_rfl (by omega))
    ?_ le_rfl (by omega)) ?_ le_rfl (by omega)
  · exact mul_bd (hxy i) (hp 0 (by omega) _ (fun _ => ofInt_bd (M := 0) (by norm_num) (by norm_num) le_rfl) i) (by omega)
      (by omega)
  · exact (hp _ (by omega) _ (fun k => hxy _) i).mono le_rfl (by omega)
  · exact mul_bd (hx i) (hp _ (by omega) _ (fun k => hy _) i) (by omega) (by omega)
  · exact mul_bd (hy i) (hp _ (by omega) _ (fun k => hx _) i) (by omega) (by omega)

theorem avlTerms_bd (h : IsIeee64 sqrt sum dot) (hN : n ≤ 2 ^ N) (hM : N ≤ 26) (compiled : Bool)
    (argsort : (Fin n → F64) → Equiv.Perm (Fin n)) {Kx Ky : ℕ} {x y : Fin n → F64} (hn : 3 < n) (hx : ∀ i, Bd 1 Kx (x i))
    (hy : ∀ i, Bd 1 Ky (y i)) (hK : Kx + Ky + 2 * N + 8 ≤ 970) :
    ∃ t, Arith.avlTerms I compiled argsort x y = .ok t ∧
      TermsBd (Kx + Ky + 2 * N + 12) (Kx + N + 3) (Kx + 2 * N + 3) (Ky + N + 3) (Ky + 2 * N + 3) t := by
  have hL : n ≤ 2 ^ Nat.clog 2 n := Nat.le_pow_clog (by norm_num) n
  choose D hD using avlTermsWith_safe_loop I (Nat.clog 2 n) hL compiled (argsort fun i => y (argsort x i))
  have hDD : ∀ K ≤ 970, ∀ c, (∀ i, Bd 1 K (c i)) → ∀ i, Bd 1 (K + N) (D c i) := by
    intro K hK c hc i
    obtain ⟨g, e, hg⟩ := dyad_rel (addRel_bd h hK) compiled (rankOf (argsort fun i => y (argsort x i)))
      (rankOf_bounds _ hL) c (fun _ => 1) (fun i _ => hc i) (fun _ : Fin (2 ^ (Nat.clog 2 n + 1)) => Arith.ofInt I 0)
    rw [hD c] at e
    have e := Except.ok.inj e
    rw [e]
    have hle : gammaSpec (rankOf (argsort fun i => y (argsort x i))) (fun _ => 1) i ≤ n := by
      unfold gammaSpec
      calc _ ≤ ∑ _ : Fin n, 1 := Finset.sum_le_sum fun j _ => by split_ifs <;> norm_num
        _ = n := by simp
    exact (hg i ((hle.trans hN).trans (pow53 (by omega)))).one (hle.trans hN) le_rfl
  refine ⟨_, avlTermsWith_eq I _ compiled argsort _ _ hn D hD, ?_⟩
  exact ⟨(prodShape_bd h hN hM _ _ hDD hx hy hK).mono le_rfl (by omega), axisShape_bd h hN hM _ hx (by omega),
    totalShape_bd h hN hM _ hx (by omega), axisShape_bd h hN hM _ hy (by omega), totalShape_bd h hN hM _ hy (by omega)⟩

/-! ### Variance terms -/

theorem varTerm_bd (h : IsIeee64 sqrt sum dot) (hn0 : 0 < n) (hN : n ≤ 2 ^ N) (hM : N ≤ 26) {x : Fin n → F64} {K : ℕ}
    (hx : ∀ i, Bd 1 K (x i)) (hK : 2 * K + 5 * N + 3 ≤ 970) : Bd 1 (2 * K + 5 * N + 3) (Arith.varTerm I x) := by
  obtain ⟨⟨d1, d1'⟩, -⟩ := divisors false hn0 (by simp) hN
  have h1 : (n : ℤ) ≤ 2 ^ N := by exact_mod_cast hN
  have h2 : |2 * (n : ℤ) ^ 2| ≤ 2 ^ (2 * N + 1) := by
    rw [abs_of_nonneg (by positivity), show (2 : ℤ) ^ (2 * N + 1) = 2 * (2 ^ N) ^ 2 by ring]
    gcongr
  unfold Arith.varTerm
  have hm := idiv_bd (sqrt := sqrt) (sum := sum) (dot := dot) d1 d1' (by omega)
    (vsum_bd h hx hN (by omega) (le_refl (K + N)) (by omega)) (by omega)
  have hd : ∀ i, Bd 1 (K + N + 1) (Arith.sub I (x i) (Arith.idiv I (Arith.vsum I x) n)) :=
    fun i => sub_bd (K := K + N) ((hx i).mono le_rfl (by omega)) hm le_rfl (by omega)
  exact imul_bd h2 (by omega) (idiv_bd (sqrt := sqrt) (sum := sum) (dot := dot) d1 d1' (by omega)
    (vsum_bd h (fun i => mul_bd (hd i) (hd i) le_rfl (by omega)) hN (by omega) (le_refl (K + N + 1 + (K + N + 1) + N))
      (by omega)) (by omega)) (by omega) (by omega)

/-- Statistics of a fast method, given its terms. -/
theorem fast_bd (h : IsIeee64 sqrt sum dot) (bc : Bool) (hn0 : 0 < n) (hn : bc = true → 3 < n) (hN : n ≤ 2 ^ N) (hM : N ≤ 26)
    {Kx Ky : ℕ} {x y : Fin n → F64} (hx : ∀ i, Bd 1 Kx (x i)) (hy : ∀ i, Bd 1 Ky (y i)) (hX : 2 * Kx + 5 * N + 15 ≤ 970)
    (hY : 2 * Ky + 5 * N + 15 ≤ 970) {t : CoreTerms F64 n}
    (ht : TermsBd (Kx + Ky + 2 * N + 12) (Kx + N + 3) (Kx + 2 * N + 3) (Ky + N + 3) (Ky + 2 * N + 3) t) :
    StatsBd (Kx + Ky + 4 * N + 15) (2 * Kx + 5 * N + 15) (2 * Ky + 5 * N + 15)
      (Arith.statsFromTerms I bc ⟨t, Arith.varTerm I x, Arith.varTerm I y⟩) :=
  stats_bd h bc hn0 hn hN hM ht (varTerm_bd h hn0 hN hM hx (by omega)) (varTerm_bd h hn0 hN hM hy (by omega))
    (by omega) (by omega) (by omega) (by omega) (by omega) (by omega) (by omega) (by omega) (by omega) (by omega) hX hY

/-! ### Mergesort -/

/-- The comparison `>=` of finite numbers. -/
def FinGe (ge : F64 → F64 → Bool) : Prop := ∀ a b : ℚ, ge (fin a) (fin b) = decide (b ≤ a)

theorem isGe_decide : IsGe (fun a b : ℚ => decide (b ≤ a)) where
  trans a b c h1 h2 := by
    simp only [decide_eq_true_eq] at *
    exact h2.trans h1
  total a b := by
    simp only [decide_eq_true_eq]
    exact le_total b a

theorem weightSums_bd {V : ℕ} (hN : n ≤ 2 ^ N) (hM : N ≤ 26) {ge : F64 → F64 → Bool} (hge : FinGe ge) {y : Fin n → F64}
    (hy : ∀ i, (y i).Finite) {w : Fin n → Fin V → F64} {K : Fin V → ℕ} (hw : ∀ i v, Bd 1 (K v) (w i v))
    (hK : ∀ v, K v + N + 6 ≤ 970) :
    ∃ r, Arith.computeWeightSums I ge y w = .ok r ∧ ∀ i v, Bd 1 (K v + N + 6) (r.2.1 i v) := by
  have hn53 : n * 64 ≤ 2 ^ 53 := by
    have := pow53 (M := N + 6) (by omega)
    rw [pow_add] at this
    omega
  have hlog : Nat.clog 2 n ≤ N := (Nat.clog_le_iff_le_pow (by norm_num)).2 hN
  obtain ⟨π, ws, u, e, h1, -⟩ := Arith.computeWeightSums_step (A := I) (B := fun _ : ℤ => True)
    (rel := fun k v _ r => k ≤ N → Bd (2 * n * k) (K v) r) (wrel := fun v _ r => Bd n (K v) r) (w := fun _ _ => 0)
    (w' := w) (fun k => ⟨fun v g r h hk => (h (by omega)).mono (Nat.mul_le_mul_left _ (by omega)) le_rfl,
      fun v a b c r rb rc _ _ _ _ _ hr hb hc hk => by
        have hk26 : 2 * n * (k + 1) ≤ 2 ^ 53 := by
          refine le_trans ?_ hn53
          calc 2 * n * (k + 1) ≤ 2 * n * 32 := Nat.mul_le_mul_left _ (by omega)
            _ = n * 64 := by ring
        have e2 : 2 * n * (k + 1) = 2 * n * k + (n + n) := by ring
        rw [e2] at hk26 ⊢
        exact (hr (by omega)).add (hb.sub hc (by omega) (by have := hK v; omega)) hk26 (by have := hK v; omega)⟩)
    (fun v _ => ⟨0, ofInt_zero, by simp⟩) isGe_decide (fun i => (y i).toQ) (fun _ _ => trivial) (by
      intro π
      have hπ : ∀ t : Fin n, ((π t : Fin n) : ℕ) < n := fun t => (π t).2
      unfold Arith.weightsCumsum
      rw [dif_pos hπ]
      refine ⟨_, rfl, fun k v => ?_⟩
      dsimp only
      by_cases hk : (k : ℕ) = 0
      · rw [dif_pos hk]
        exact ⟨0, ofInt_zero, by rw [abs_zero]; positivity⟩
      · rw [dif_neg hk]
        have hlt : (k : ℕ) - 1 < n := by omega
        exact (cumsum_bd' (sqrt := sqrt) (sum := sum) (dot := dot) (v := fun t => w ⟨π t, hπ t⟩ v) (fun t => hw _ v)
          (by omega) (by have := hK v; omega) _ hlt).mono (by omega) le_rfl)
  have key := computeWeightSums_rel (A := I) (A' := I) (rel := fun (_ : Fin V) a b => a = b)
    ⟨fun _ => rfl, fun _ _ _ _ _ h h' => by rw [h, h'], fun _ _ _ _ _ h h' => by rw [h, h']⟩
    (ge := ge) (ge' := fun a b : ℚ => decide (b ≤ a)) (y := y) (y' := fun i => (y i).toQ)
    (fun i j => by
      rw [← hge, ← F64.fin_toQ (hy i), ← F64.fin_toQ (hy j)]) (w := w) (w' := w) (fun _ _ => rfl)
  rw [e] at key
  obtain ⟨r, er, -, hr, -⟩ := key.of_ok
  refine ⟨r, er, fun i v => ?_⟩
  rw [hr i v]
  refine (h1 i v hlog).one (M := N + 6) ?_ (by omega)
  calc 2 * n * Nat.clog 2 n ≤ 2 * 2 ^ N * 32 := Nat.mul_le_mul (by omega) (by omega)
    _ = 2 ^ (N + 6) := by ring

theorem aijbij_bd (h : IsIeee64 sqrt sum dot) (hN : n ≤ 2 ^ N) (hM : N ≤ 26) {ge : F64 → F64 → Bool} (hge : FinGe ge)
    {Kx Ky : ℕ} {x y : Fin n → F64} (hx : ∀ i, Bd 1 Kx (x i)) (hy : ∀ i, Bd 1 Ky (y i)) (hK : Kx + Ky + 2 * N + 12 ≤ 970) :
    ∃ r, Arith.computeAijbijTerm I ge x y = .ok r ∧ Bd 1 (Kx + Ky + 2 * N + 12) r := by
  have hxy : ∀ i, Bd 1 (Kx + Ky) (Arith.mul I (x i) (y i)) := fun i => mul_bd (hx i) (hy i) le_rfl (by omega)
  have hnN : |(n : ℤ)| ≤ 2 ^ N := by
    rw [abs_of_nonneg (by positivity)]
    exact_mod_cast hN
  obtain ⟨⟨π, ws, u⟩, e, hws⟩ := weightSums_bd (sqrt := sqrt) (sum := sum) (dot := dot) hN hM hge (fun i => (hy i).finite)
    (w := fun i => (![Arith.ofInt I 1, y i, x i, Arith.mul I (x i) (y i)] : Fin 4 → F64)) (K := ![0, Ky, Kx, Kx + Ky])
    (by
      intro i v
      fin_cases v
      · exact ofInt_bd (M := 0) (by norm_num) (by norm_num) le_rfl
      · exact hy i
      · exact hx i
      · exact hxy i)
    (by intro v; fin_cases v <;> simp <;> omega)
  have w0 : ∀ i, Bd 1 (N + 6) (ws i 0) := fun i => (hws i 0).mono le_rfl (by simp)
  have w1 : ∀ i, Bd 1 (Ky + N + 6) (ws i 1) := fun i => hws i 1
  have w2 : ∀ i, Bd 1 (Kx + N + 6) (ws i 2) := fun i => hws i 2
  have w3 : ∀ i, Bd 1 (Kx + Ky + N + 6) (ws i 3) := fun i => hws i 3
  have sx := vsum_bd h hx hN (by omega) (le_refl (Kx + N)) (by omega)
  have sy := vsum_bd h hy hN (by omega) (le_refl (Ky + N)) (by omega)
  suffices hs : ∀ r, Arith.computeAijbijTerm I ge x y = .ok r → Bd 1 (Kx + Ky + 2 * N + 12) r by
    have he : ∃ r, Arith.computeAijbijTerm I ge x y = .ok r := by
      unfold Arith.computeAijbijTerm
      simp only [e, Except.ok_bind', Except.pure_eq]
      exact ⟨_, rfl⟩
    exact he.imp fun r hr => ⟨hr, hs r hr⟩
  · intro r hr
    unfold Arith.computeAijbijTerm at hr
    simp only [e, Except.ok_bind', Except.pure_eq] at hr
    obtain rfl := Except.ok.inj hr
    refine sub_bd (K := Kx + Ky + 2 * N + 11) (imul_bd (M := 2) (K := Kx + Ky + 2 * N + 9) (by norm_num) (by norm_num) ?_
      (by omega) (by omega)) (imul_bd (M := 1) (K := Kx + Ky + 2 * N + 3) (by norm_num) (by norm_num) ?_ (by omega)
      (by omega)) (by omega) hK
    · refine add_bd (K := Kx + Ky + 2 * N + 8) (sub_bd (K := Kx + Ky + 2 * N + 7) (sub_bd (K := Kx + Ky + 2 * N + 6) ?_ ?_
        le_rfl (by omega)) ?_ le_rfl (by omega)) ?_ le_rfl (by omega)
      · exact vdot_bd h hxy w0 hN (by omega) (by omega) (by omega)
      · exact vdot_bd h hx w1 hN (by omega) (by omega) (by omega)
      · exact vdot_bd h hy w2 hN (by omega) (by omega) (by omega)
      · exact vsum_bd h w3 hN (by omega) (by omega) (by omega)
    · refine add_bd (K := Kx + Ky + 2 * N + 2) (sub_bd (K := Kx + Ky + 2 * N + 1) ?_ ?_ le_rfl (by omega)) ?_ le_rfl
        (by omega)
      · exact vdot_bd h (K := Kx + N) (fun i => imul_bd hnN (by omega) (hx i) le_rfl (by omega)) hy hN (by omega) (by omega)
          (by omega)
      · exact vsum_bd h (K := Kx + Ky + N + 1) (fun i => add_bd (K := Kx + Ky + N) (mul_bd sx (hy i) (by omega) (by omega))
          (mul_bd sy (hx i) (by omega) (by omega)) le_rfl (by omega)) hN (by omega) (by omega) (by omega)
      · exact mul_bd sx sy (by omega) (by omega)

theorem rowSums_bd (hn0 : 0 < n) (hN : n ≤ 2 ^ N) (hM : N ≤ 26) {K : ℕ} {x : Fin n → F64} (hx : ∀ i, Bd 1 K (x i))
    (hK : K + N + 3 ≤ 970) : ∃ r, Arith.computeRowSums I x = .ok r ∧ ∀ i, Bd 1 (K + N + 3) (r i) := by
  have h1 : (n : ℤ) ≤ 2 ^ N := by exact_mod_cast hN
  unfold Arith.computeRowSums
  rw [dif_pos hn0]
  refine ⟨_, rfl, fun i => ?_⟩
  have hr : |2 * (((i : ℕ) + 1 : ℕ) : ℤ) - n| ≤ 2 ^ N := by
    have := i.2
    rw [abs_le]
    constructor <;> omega
  exact add_bd (K := K + N + 2) ((imul_bd hr (by omega) (hx i) le_rfl (by omega)).mono le_rfl (by omega))
    (sub_bd (K := K + N + 1) ((cumsum_bd hx hN (by omega) le_rfl (by omega) _).mono le_rfl (by omega))
      (imul_bd (M := 1) (by norm_num) (by norm_num) (cumsum_bd hx hN (by omega) le_rfl (by omega) _) le_rfl (by omega))
      le_rfl (by omega)) le_rfl (by omega)

theorem mergesortTerms_bd (h : IsIeee64 sqrt sum dot) (hn0 : 0 < n) (hN : n ≤ 2 ^ N) (hM : N ≤ 26) {ge : F64 → F64 → Bool}
    (hge : FinGe ge) (argsort : (Fin n → F64) → Equiv.Perm (Fin n)) {Kx Ky : ℕ} {x y : Fin n → F64}
    (hx : ∀ i, Bd 1 Kx (x i)) (hy : ∀ i, Bd 1 Ky (y i)) (hK : Kx + Ky + 2 * N + 12 ≤ 970) :
    ∃ t, Arith.mergesortTerms I ge argsort x y = .ok t ∧
      TermsBd (Kx + Ky + 2 * N + 12) (Kx + N + 3) (Kx + 2 * N + 3) (Ky + N + 3) (Ky + 2 * N + 3) t := by
  obtain ⟨a, ea, ha⟩ := aijbij_bd h hN hM hge (x := fun i => x (argsort x i)) (y := fun i => y (argsort x i))
    (fun i => hx _) (fun i => hy _) hK
  obtain ⟨r, er, hr⟩ := rowSums_bd (sqrt := sqrt) (sum := sum) (dot := dot) hn0 hN hM (x := fun i => x (argsort x i))
    (fun i => hx _) (by omega)
  obtain ⟨s, es, hs⟩ := rowSums_bd (sqrt := sqrt) (sum := sum) (dot := dot) hn0 hN hM
    (x := fun i => y (argsort x (argsort (fun i => y (argsort x i)) i))) (fun i => hy _) (by omega)
  have hsc : ∀ i, Bd 1 (Ky + N + 3) (scatter (fun _ => Arith.ofInt I 0) (argsort fun i => y (argsort x i)) s i) := by
    intro i
    rw [scatter_perm]
    exact hs _
  refine ⟨⟨a, r, Arith.vsum I r, scatter (fun _ => Arith.ofInt I 0) (argsort fun i => y (argsort x i)) s,
    Arith.vsum I (scatter (fun _ => Arith.ofInt I 0) (argsort fun i => y (argsort x i)) s)⟩, ?_, ?_⟩
  · unfold Arith.mergesortTerms
    simp only [ea, er, es, Except.ok_bind', Except.pure_eq]
  · exact ⟨ha, hr, vsum_bd h hr hN (by omega) (by omega) (by omega), hsc, vsum_bd h hsc hN (by omega) (by omega) (by omega)⟩

/-! ### Correlation -/

theorem corr_bd (h : IsIeee64 sqrt sum dot) {c : F64} {vx vy : ℚ} {Gx Gy e : ℤ} {C X Y : ℕ} (hc : Bd 1 C c)
    (hx : OnGrid Gx vx) (hy : OnGrid Gy vy) (bx : Bd 1 X (fin vx)) (byy : Bd 1 Y (fin vy)) (hG : Gx + Gy ≤ 1074)
    (hXY : X + Y ≤ 970) (he : Gx + Gy ≤ 2 * e) (hC : C + e + 52 ≤ 970) :
    |round64 (vx * vy)| < 2 ^ 1024 ∧ (Arith.corrOf I c (fin vx) (fin vy)).Finite := by
  have hm := mul_bd (sqrt := sqrt) (sum := sum) (dot := dot) bx byy hXY le_rfl
  have e0 : Arith.mul I (fin vx) (fin vy)
      = if 2 ^ 1024 ≤ |round64 (vx * vy)| then inf (decide (round64 (vx * vy) < 0)) else fin (round64 (vx * vy)) :=
    F64.round_eq (Or.inl ((hx.mul hy).mono hG))
  have hv : |round64 (vx * vy)| < 2 ^ 1024 := by
    by_contra hc
    rw [if_pos (not_lt.1 hc)] at e0
    rw [e0] at hm
    exact hm.finite
  refine ⟨hv, ?_⟩
  rw [if_neg (not_le.2 hv)] at e0
  obtain ⟨e2, h2⟩ := sqrtClip_ieee h (abs_nonneg (round64 (vx * vy)))
  obtain ⟨d, hd⟩ : ∃ d, Arith.sqrtClip I (fin |round64 (vx * vy)|) = fin d ∧ SqrtTo |round64 (vx * vy)| d :=
    ⟨_, e2, h2⟩
  have e4 : Arith.corrOf I c (fin vx) (fin vy)
      = if F64.eq (fin d) (F64.round ((0 : ℤ) : ℚ)) then F64.round ((0 : ℤ) : ℚ) else F64.div c (fin d) := by
    unfold Arith.corrOf Arith.eqZero
    rw [e0, show Arith.abs I (fin (round64 (vx * vy))) = fin |round64 (vx * vy)| from rfl, hd.1]
    rfl
  rw [e4, ofInt_zero]
  by_cases h0 : d = 0
  · rw [h0]
    trivial
  · rw [if_neg (by simpa [F64.eq] using h0)]
    obtain ⟨q, rfl, hq⟩ := hc
    show (if d = 0 then _ else F64.round (q / d)).Finite
    rw [if_neg h0]
    have hgrid : OnGrid (2 * e) |round64 (vx * vy)| := by
      have := (hx.mul hy).round.mono he
      rcases abs_choice (round64 (vx * vy)) with h | h
      · rw [h]; exact this
      · rw [h]; exact this.neg
    have hlow := (hd.2.grid hgrid).le_abs h0
    have he0 : 0 ≤ C + e + 52 ∨ C + e + 52 < 0 := by omega
    have key : |q / d| ≤ 2 ^ (C + (e + 52)) := by
      rw [abs_div, div_le_iff₀ (abs_pos.2 h0)]
      rw [Nat.cast_one, one_mul] at hq
      calc |q| ≤ 2 ^ (C : ℤ) := by rw [zpow_natCast]; exact hq
        _ = 2 ^ (C + (e + 52)) * 2 ^ (-(e + 52)) := by rw [← zpow_add₀ (by norm_num), add_neg_cancel_right]
        _ ≤ _ := mul_le_mul_of_nonneg_left hlow (by positivity)
    refine (bd_round (w := 1) (K := 970) (by norm_num) le_rfl ?_).finite
    rw [Nat.cast_one, one_mul]
    refine key.trans ?_
    rw [← zpow_natCast]
    exact zpow_le_zpow_right₀ (by norm_num) (by push_cast; omega)

/-- The same numbers as finite `float64` numbers. -/
def Arith.StatsSqr.fin (r : Arith.StatsSqr ℚ) : Arith.StatsSqr F64 :=
  ⟨F64.fin r.cov, F64.fin r.corr, F64.fin r.varX, F64.fin r.varY⟩

theorem stats_eq (h : IsIeee64 sqrt sum dot) (bc : Bool) {t : Arith.AllTerms F64 n} {r' : Arith.StatsSqr ℚ} {Gx Gy e : ℤ}
    {C X Y : ℕ} (hr : StatsRel (Arith.statsFromTerms I bc t) r') (hx : OnGrid Gx r'.varX) (hy : OnGrid Gy r'.varY)
    (hb : StatsBd C X Y (Arith.statsFromTerms I bc t)) (hG : Gx + Gy ≤ 1074) (hXY : X + Y ≤ 970)
    (he : Gx + Gy ≤ 2 * e) (hC : C + e + 52 ≤ 970) : Arith.statsFromTerms I bc t = r'.fin := by
  have e1 := hr.cov.resolve_right (not_not.2 hb.cov.finite)
  have e2 := hr.varX.resolve_right (not_not.2 hb.varX.finite)
  have e3 := hr.varY.resolve_right (not_not.2 hb.varY.finite)
  obtain ⟨hv, hf⟩ := corr_bd h hb.cov hx hy (e2 ▸ hb.varX) (e3 ▸ hb.varY) hG hXY he hC
  rw [← e2, ← e3] at hf
  have e4 := (hr.corr hb.varX.finite hb.varY.finite hv).resolve_right (not_not.2 hf)
  unfold Arith.StatsSqr.fin
  rw [← e1, ← e2, ← e3, ← e4]

/-! ### Energy distance -/

theorem mean_bd (h : IsIeee64 sqrt sum dot) {l : List F64} {K M : ℕ} (hl : ∀ a ∈ l, Bd 1 K a) (h0 : l ≠ [])
    (hN : l.length ≤ 2 ^ M) (hM : M ≤ 53) (hK : K + M ≤ 970) : Bd 1 (K + M) (Arith.mean I l) := by
  unfold Arith.mean
  refine idiv_bd (M := M) ?_ ?_ (by omega) (sum_bd h hl hN hM le_rfl hK) (by omega)
  · exact_mod_cast (List.length_pos_iff.2 h0).ne'
  · rw [abs_of_nonneg (by positivity)]
    exact_mod_cast hN

theorem energy_bd (h : IsIeee64 sqrt sum dot) (s : EstStat) (hn0 : 0 < n) (hm0 : 0 < m) (hs : s = .u → 1 < n ∧ 1 < m)
    (hn : n ≤ 2 ^ N) (hm : m ≤ 2 ^ N) (hp : p ≤ 2 ^ N) (hM : N ≤ 26) {K : ℕ} (hK : 2 * K + 2 * N + 2 ≤ 970)
    (hK' : K + 3 * N + 5 ≤ 970) {x : Fin n → Fin p → F64} {y : Fin m → Fin p → F64} (hx : ∀ i k, Bd 1 K (x i k))
    (hy : ∀ i k, Bd 1 K (y i k)) : Bd 1 (K + 3 * N + 5) (Arith.energyDistance I s x y) := by
  have hsq : 2 ^ (2 * N) = 2 ^ N * 2 ^ N := by ring
  have within : ∀ {k : ℕ} {a : Fin k → Fin k → F64}, 0 < k → (s = .u → 1 < k) → k ≤ 2 ^ N →
      (∀ i j, Bd 1 (K + N + 2) (a i j)) →
      Bd 1 (K + 3 * N + 2)
        (Arith.mean I (match (generalizing := false) s with | .u => Arith.flatUpper a | .v => Arith.flatAll a)) := by
    intro k a hk0 hk1 hkN hab
    rw [show K + 3 * N + 2 = (K + N + 2) + 2 * N by ring]
    cases s with
    | v =>
      refine mean_bd h ?_ ?_ ?_ (by omega) (by omega)
      · intro c hc
        obtain ⟨i, j, rfl⟩ := (mem_flatAll _ _).1 hc
        exact hab i j
      · exact List.ne_nil_of_mem ((mem_flatAll _ _).2 ⟨⟨0, hk0⟩, ⟨0, hk0⟩, rfl⟩)
      · show (Arith.flatAll a).length ≤ _
        rw [flatAll_length, hsq]
        exact Nat.mul_le_mul hkN hkN
    | u =>
      refine mean_bd h ?_ ?_ ?_ (by omega) (by omega)
      · intro c hc
        obtain ⟨i, j, -, rfl⟩ := (mem_flatUpper _ _).1 hc
        exact hab i j
      · exact List.ne_nil_of_mem ((mem_flatUpper _ _).2 ⟨⟨0, hk0⟩, ⟨1, hk1 rfl⟩, by simp, rfl⟩)
      · refine (flatUpper_length_le a).trans ?_
        rw [hsq]
        exact Nat.mul_le_mul hkN hkN
  unfold Arith.energyDistance Arith.energyFromMatrices
  refine sub_bd (K := K + 3 * N + 4) (sub_bd (K := K + 3 * N + 3) (imul_bd (M := 1) (K := K + 3 * N + 2) (by norm_num)
    (by norm_num) ?_ (by omega) (by omega)) ?_ le_rfl (by omega)) ?_ le_rfl (by omega)
  · rw [show K + 3 * N + 2 = (K + N + 2) + 2 * N by ring]
    refine mean_bd h ?_ ?_ ?_ (by omega) (by omega)
    · intro c hc
      obtain ⟨i, j, rfl⟩ := (mem_flatAll _ _).1 hc
      exact cdist_bd h hx hy hp (by omega) hK le_rfl i j
    · exact List.ne_nil_of_mem ((mem_flatAll _ _).2 ⟨⟨0, hn0⟩, ⟨0, hm0⟩, rfl⟩)
    · rw [flatAll_length, hsq]
      exact Nat.mul_le_mul hn hm
  · exact (within hn0 (fun e => (hs e).1) hn (cdist_bd h hx hx hp (by omega) hK le_rfl)).mono le_rfl (by omega)
  · exact (within hm0 (fun e => (hs e).2) hm (cdist_bd h hy hy hp (by omega) hK le_rfl)).mono le_rfl (by omega)

theorem energyTest_bd (h : IsIeee64 sqrt sum dot) (s : EstStat) (hn0 : 0 < n) (hm0 : 0 < m) (hs : s = .u → 1 < n ∧ 1 < m)
    (hn : n ≤ 2 ^ N) (hm : m ≤ 2 ^ N) (hp : p ≤ 2 ^ N) (hM : N ≤ 26) {K : ℕ} (hK : 2 * K + 2 * N + 2 ≤ 970)
    (hK' : K + 5 * N + 5 ≤ 970) {x : Fin n → Fin p → F64} {y : Fin m → Fin p → F64} (hx : ∀ i k, Bd 1 K (x i k))
    (hy : ∀ i k, Bd 1 K (y i k)) : Bd 1 (K + 5 * N + 5) (Arith.energyTestStatistic I s x y) := by
  unfold Arith.energyTestStatistic
  have hnz : (n : ℤ) ≤ 2 ^ N := by exact_mod_cast hn
  have hmz : (m : ℤ) ≤ 2 ^ N := by exact_mod_cast hm
  have hc : Bd 1 (2 * N) (Arith.idiv I (Arith.ofInt I ((n : ℤ) * m)) ((n : ℤ) + m)) := by
    refine idiv_bd (M := N + 1) (by omega) ?_ (by omega) (ofInt_bd (M := 2 * N) ?_ (by omega) le_rfl) (by omega)
    · rw [abs_of_nonneg (by positivity), pow_succ]
      omega
    · rw [abs_of_nonneg (by positivity), show (2 : ℤ) ^ (2 * N) = 2 ^ N * 2 ^ N by ring]
      exact mul_le_mul hnz hmz (by positivity) (by positivity)
  exact mul_bd hc (energy_bd h s hn0 hm0 hs hn hm hp hM hK (by omega) hx hy) (by omega) hK'

end Dcor

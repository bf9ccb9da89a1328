/-
The dyadic inner loops of the AVL algorithm compute `∑_{j < i, y_j < y_i} c_j`.
-/
import Verif.Model.Avl
import Verif.Proofs.Loops
import Mathlib.Algebra.Module.BigOperators
import Mathlib.Tactic.Ring
import Mathlib.Tactic.Linarith
import Mathlib.Tactic.Positivity
import Mathlib.Tactic.FieldSimp
import Mathlib.Tactic.Push
import Mathlib.Data.Fin.Tuple.Sort

namespace Dcor

/-! ### Bit lemma -/

/-- Exactly one level separates `u` from `m` when `u < m`, and none otherwise. -/
theorem dyad_count : ∀ (L m u : ℕ), m < 2 ^ L → u < 2 ^ L →
    (∑ l ∈ Finset.range L, if (m / 2 ^ l) % 2 = 1 ∧ u / 2 ^ l + 1 = m / 2 ^ l then 1 else 0)
      = if u < m then 1 else 0
  | 0, m, u, hm, hu => by
    simp only [pow_zero, Nat.lt_one_iff] at hm hu
    simp [hm, hu]
  | L + 1, m, u, hm, hu => by
    have hm2 : m / 2 < 2 ^ L := by rw [pow_succ] at hm; omega
    have hu2 : u / 2 < 2 ^ L := by rw [pow_succ] at hu; omega
    have ih := dyad_count L (m / 2) (u / 2) hm2 hu2
    rw [Finset.sum_range_succ']
    have : ∀ l : ℕ, m / 2 ^ (l + 1) = m / 2 / 2 ^ l := fun l => by
      rw [Nat.div_div_eq_div_mul, pow_succ']
    have hu' : ∀ l : ℕ, u / 2 ^ (l + 1) = u / 2 / 2 ^ l := fun l => by
      rw [Nat.div_div_eq_div_mul, pow_succ']
    simp only [this, hu', ih, pow_zero, Nat.div_one]
    split_ifs <;> omega

/-! ### Positions -/

theorem sum_pow_offset (L : ℕ) : ∀ k, k ≤ L →
    (∑ j ∈ Finset.range k, (2 : ℤ) ^ (L - j)) = 2 ^ (L + 1) - 2 ^ (L + 1 - k)
  | 0, _ => by simp
  | k + 1, hk => by
    rw [Finset.sum_range_succ, sum_pow_offset L k (by omega)]
    have h1 : L + 1 - k = (L - k) + 1 := by omega
    have h2 : L + 1 - (k + 1) = L - k := by omega
    rw [h1, h2, pow_succ (2 : ℤ) (L - k)]
    ring

theorem posSums_eq (L : ℕ) (i : Fin L) :
    posSums L i = 2 ^ (L + 1) - 2 ^ (L - (i : ℕ)) := by
  have := sum_pow_offset L (i + 1) (by omega)
  have h2 : L + 1 - ((i : ℕ) + 1) = L - i := by omega
  rw [h2] at this
  rw [← this, posSums, cumsum]
  symm
  apply Finset.sum_bij (fun (j : ℕ) (hj : j ∈ Finset.range ((i : ℕ) + 1)) =>
    (⟨j, by have := Finset.mem_range.1 hj; omega⟩ : Fin L))
  · intro a ha
    have := Finset.mem_range.1 ha
    simp only [Finset.mem_Iic]
    rw [Fin.le_def]
    simp only
    omega
  · intro a _ b _ h
    simpa using h
  · intro b hb
    have hb' : (b : ℕ) ≤ (i : ℕ) := Fin.le_def.1 (Finset.mem_Iic.1 hb)
    exact ⟨b, by simpa using Nat.lt_succ_of_le hb', rfl⟩
  · intro a ha
    rfl

/-- Offset of level `l`. -/
def off (L l : ℕ) : ℤ := 2 ^ (L + 1) - 2 ^ (L + 1 - l)

theorem levelOffset_posSums (L : ℕ) (l : Fin L) : levelOffset (posSums L) l = off L l := by
  have hl := l.2
  unfold levelOffset
  split_ifs with h
  · simp [off, h]
  · rw [posSums_eq, off]
    have : L - ((l : ℕ) - 1) = L + 1 - l := by omega
    simp only [this]

theorem floor_div_pow (y : ℤ) (l : ℕ) : ⌊((y : ℚ) - 1) / 2 ^ l⌋ = (y - 1) / 2 ^ l := by
  have := Rat.floor_intCast_div_natCast (y - 1) (2 ^ l)
  push_cast at this
  exact this

theorem ceil_div_pow (y : ℤ) (l : ℕ) : ⌈(y : ℚ) / 2 ^ l⌉ = (y - 1) / 2 ^ l + 1 := by
  have hp : (0 : ℤ) < 2 ^ l := by positivity
  have hpq : (0 : ℚ) < 2 ^ l := by positivity
  rw [Int.ceil_eq_iff]
  have h1 := Int.emod_add_mul_ediv (y - 1) (2 ^ l)
  have h2 := Int.emod_nonneg (y - 1) hp.ne'
  have h3 := Int.emod_lt_of_pos (y - 1) hp
  constructor
  · rw [lt_div_iff₀ hpq]
    have : ((y - 1) / 2 ^ l + 1 - 1) * 2 ^ l < y := by nlinarith
    exact_mod_cast this
  · rw [div_le_iff₀ hpq]
    have : y ≤ ((y - 1) / 2 ^ l + 1) * 2 ^ l := by nlinarith
    exact_mod_cast this

/-- Position of block `q` (counted from zero) at level `l`. -/
def dpos (L l : ℕ) (q : ℤ) : ℤ := q + off L l

theorem dpos_bounds {L l : ℕ} (hl : l ≤ L) {q : ℤ} (h0 : 0 ≤ q) (h1 : q < 2 ^ (L - l)) :
    0 ≤ dpos L l q ∧ dpos L l q < 2 ^ (L + 1) := by
  have e : L + 1 - l = (L - l) + 1 := by omega
  have hle : (2 : ℤ) ^ (L + 1 - l) ≤ 2 ^ (L + 1) := by
    apply pow_le_pow_right₀ (by norm_num); omega
  have hpos : (0 : ℤ) < 2 ^ (L - l) := by positivity
  unfold dpos off
  rw [e, pow_succ] at *
  constructor <;> omega

theorem dpos_lt_of_lt {L l l' : ℕ} (hl : l < l') (hl' : l' ≤ L) {q q' : ℤ}
    (h1 : q < 2 ^ (L - l)) (h0' : 0 ≤ q') : dpos L l q < dpos L l' q' := by
  have hle : (2 : ℤ) ^ (L + 1 - l') ≤ 2 ^ (L - l) := by
    apply pow_le_pow_right₀ (by norm_num); omega
  have e : L + 1 - l = (L - l) + 1 := by omega
  unfold dpos off
  rw [e, pow_succ]
  omega

theorem dpos_inj {L l l' : ℕ} (hl : l ≤ L) (hl' : l' ≤ L) {q q' : ℤ}
    (h0 : 0 ≤ q) (h1 : q < 2 ^ (L - l)) (h0' : 0 ≤ q') (h1' : q' < 2 ^ (L - l'))
    (h : dpos L l q = dpos L l' q') : l = l' ∧ q = q' := by
  rcases lt_trichotomy l l' with hlt | heq | hgt
  · exact absurd h (dpos_lt_of_lt hlt hl' h1 h0').ne
  · subst heq
    refine ⟨rfl, ?_⟩
    unfold dpos at h
    omega
  · exact absurd h.symm (dpos_lt_of_lt hgt hl h1' h0).ne

theorem div_pow_bounds {L l : ℕ} (hl : l ≤ L) {m : ℤ} (h0 : 0 ≤ m) (h1 : m < 2 ^ L) :
    0 ≤ m / 2 ^ l ∧ m / 2 ^ l < 2 ^ (L - l) := by
  have hp : (0 : ℤ) < 2 ^ l := by positivity
  refine ⟨Int.ediv_nonneg h0 hp.le, ?_⟩
  rw [Int.ediv_lt_iff_lt_mul hp, ← pow_add]
  rwa [Nat.sub_add_cancel hl]

section loop

variable {R : Type} [AddCommMonoid R] {n L : ℕ}

/-- Contents of the dyadic buffer after the elements `j < t` have been inserted. -/
def bufSpec (L : ℕ) (y : Fin n → ℤ) (c : Fin n → R) (t : ℕ) (p : ℤ) : R :=
  ∑ j : Fin n, if (j : ℕ) < t ∧ ∃ l < L, dpos L l ((y j - 1) / 2 ^ l) = p then c j else 0

/-- The value that the loops must compute. -/
def gammaSpec (y : Fin n → ℤ) (c : Fin n → R) (i : Fin n) : R :=
  ∑ j : Fin n, if j < i ∧ y j < y i then c j else 0

theorem positions3a_eq (yi : ℤ) (l : Fin L) :
    positions3a (posSums L) yi l = dpos L l ((yi - 1) / 2 ^ (l : ℕ)) := by
  rw [positions3a, ceil_div_pow, levelOffset_posSums, dpos]
  ring

theorem positions3bRaw_eq (yi : ℤ) (l : ℕ) :
    positions3bRaw yi l = (yi - 1) / 2 ^ l - 1 := by
  rw [positions3bRaw, floor_div_pow]

theorem positions3b_eq (yi : ℤ) (l : Fin L) :
    positions3b (posSums L) yi l = dpos L l ((yi - 1) / 2 ^ (l : ℕ) - 1) := by
  rw [positions3b, positions3bRaw_eq, levelOffset_posSums, dpos]

theorem validPosition_iff (yi : ℤ) (l : ℕ) :
    validPosition yi l = true ↔ ((yi - 1) / 2 ^ l) % 2 = 1 := by
  rw [validPosition, positions3bRaw_eq, beq_iff_eq]
  omega

/-- One odd block is read exactly from the elements of the previous block. -/
theorem bufSpec_read (y : Fin n → ℤ) (c : Fin n → R) (hy : ∀ i, 1 ≤ y i ∧ y i ≤ 2 ^ L)
    (t : ℕ) (i : Fin n) (l : ℕ) (hl : l < L) (hv : ((y i - 1) / 2 ^ l) % 2 = 1) :
    bufSpec L y c t (dpos L l ((y i - 1) / 2 ^ l - 1))
      = ∑ j : Fin n, if (j : ℕ) < t ∧ (y j - 1) / 2 ^ l + 1 = (y i - 1) / 2 ^ l
          then c j else 0 := by
  unfold bufSpec
  apply Finset.sum_congr rfl
  intro j _
  have hyi := hy i
  have hyj := hy j
  have bi := div_pow_bounds (L := L) (l := l) hl.le (m := y i - 1) (by omega) (by omega)
  have key : (∃ l' < L, dpos L l' ((y j - 1) / 2 ^ l') = dpos L l ((y i - 1) / 2 ^ l - 1))
      ↔ (y j - 1) / 2 ^ l + 1 = (y i - 1) / 2 ^ l := by
    constructor
    · rintro ⟨l', hl', h⟩
      have bj := div_pow_bounds (L := L) (l := l') hl'.le (m := y j - 1) (by omega) (by omega)
      obtain ⟨e1, e2⟩ := dpos_inj hl'.le hl.le bj.1 bj.2 (by omega) (by omega) h
      subst e1
      omega
    · intro h
      exact ⟨l, hl, by rw [← h]; congr 1; omega⟩
  simp only [key]

/-- Summing over the levels that are read gives the elements with smaller `y`. -/
theorem sum_levels (y : Fin n → ℤ) (c : Fin n → R) (hy : ∀ i, 1 ≤ y i ∧ y i ≤ 2 ^ L)
    (i : Fin n) :
    (∑ l ∈ Finset.range L, if ((y i - 1) / 2 ^ l) % 2 = 1 then
      (∑ j : Fin n, if (j : ℕ) < i ∧ (y j - 1) / 2 ^ l + 1 = (y i - 1) / 2 ^ l
          then c j else 0) else 0) = gammaSpec y c i := by
  unfold gammaSpec
  have h1 : ∀ l ∈ Finset.range L, (if ((y i - 1) / 2 ^ l) % 2 = 1 then
      (∑ j : Fin n, if (j : ℕ) < i ∧ (y j - 1) / 2 ^ l + 1 = (y i - 1) / 2 ^ l
          then c j else 0) else 0)
      = ∑ j : Fin n, if j < i then
          (if ((y i - 1) / 2 ^ l) % 2 = 1 ∧ (y j - 1) / 2 ^ l + 1 = (y i - 1) / 2 ^ l
            then 1 else 0) • c j else 0 := by
    intro l _
    split_ifs with h
    · apply Finset.sum_congr rfl
      intro j _
      by_cases hj : j < i
      · by_cases h2 : (y j - 1) / 2 ^ l + 1 = (y i - 1) / 2 ^ l <;> simp [hj, h2, h]
      · simp [hj]
    · symm
      apply Finset.sum_eq_zero
      intro j _
      simp [h]
  rw [Finset.sum_congr rfl h1, Finset.sum_comm]
  apply Finset.sum_congr rfl
  intro j _
  by_cases hj : j < i
  · simp only [hj, if_true, true_and]
    rw [← Finset.sum_smul]
    have hyi := hy i
    have hyj := hy j
    obtain ⟨m, hm⟩ := Int.eq_ofNat_of_zero_le (show 0 ≤ y i - 1 by omega)
    obtain ⟨u, hu⟩ := Int.eq_ofNat_of_zero_le (show 0 ≤ y j - 1 by omega)
    have hm2 : m < 2 ^ L := by
      have : (m : ℤ) < 2 ^ L := by omega
      exact_mod_cast this
    have hu2 : u < 2 ^ L := by
      have : (u : ℤ) < 2 ^ L := by omega
      exact_mod_cast this
    have key := dyad_count L m u hm2 hu2
    have conv : ∀ l, (((y i - 1) / 2 ^ l) % 2 = 1 ∧ (y j - 1) / 2 ^ l + 1 = (y i - 1) / 2 ^ l)
        ↔ ((m / 2 ^ l) % 2 = 1 ∧ u / 2 ^ l + 1 = m / 2 ^ l) := by
      intro l
      rw [hm, hu]
      constructor
      · rintro ⟨a, b⟩
        exact ⟨by exact_mod_cast a, by exact_mod_cast b⟩
      · rintro ⟨a, b⟩
        exact ⟨by exact_mod_cast a, by exact_mod_cast b⟩
    simp only [conv, key]
    have : u < m ↔ y j < y i := by omega
    by_cases h : y j < y i
    · simp [h, this.2 h]
    · have h' : ¬ u < m := fun h' => h (this.1 h')
      simp [h, h']
  · simp [hj]

theorem bufSpec_zero (y : Fin n → ℤ) (c : Fin n → R) (p : ℤ) : bufSpec L y c 0 p = 0 := by
  simp [bufSpec]

theorem bufSpec_succ (y : Fin n → ℤ) (c : Fin n → R) (i : Fin n) (p : ℤ) :
    bufSpec L y c (i + 1) p = bufSpec L y c i p +
      if ∃ l < L, dpos L l ((y i - 1) / 2 ^ l) = p then c i else 0 := by
  have h : (if ∃ l < L, dpos L l ((y i - 1) / 2 ^ l) = p then c i else 0)
      = ∑ j : Fin n, if j = i then
          (if ∃ l < L, dpos L l ((y j - 1) / 2 ^ l) = p then c j else 0) else 0 := by simp
  rw [h, bufSpec, bufSpec, ← Finset.sum_add_distrib]
  apply Finset.sum_congr rfl
  intro j _
  rcases lt_trichotomy (j : ℕ) (i : ℕ) with hj | hj | hj
  · have : j ≠ i := fun h => by subst h; omega
    simp [hj, this, Nat.lt_succ_of_lt hj]
  · have : j = i := Fin.ext hj
    subst this
    simp
  · have : j ≠ i := fun h => by subst h; omega
    have h2 : ¬ (j : ℕ) < i + 1 := by omega
    have h3 : ¬ (j : ℕ) < i := by omega
    simp [h2, h3, this]

theorem toNat_lt_len {L : ℕ} {p : ℤ} (h : 0 ≤ p ∧ p < 2 ^ (L + 1)) : p.toNat < 2 ^ (L + 1) := by
  have : (p.toNat : ℤ) < 2 ^ (L + 1) := by omega
  exact_mod_cast this

theorem list_sum_filter_finRange (L : ℕ) (q : Fin L → Bool) (f : Fin L → R) :
    (((List.finRange L).filter q).map f).sum = ∑ l, if q l then f l else 0 := by
  rw [← List.sum_ofFn, List.ofFn_eq_map]
  induction List.finRange L with
  | nil => simp
  | cons a t ih => by_cases h : q a <;> simp [h, ih]

/-- Loop invariant: the entries of gamma in `done` are final, the buffer holds the first `t`
elements. -/
def DyadInv (L : ℕ) (y : Fin n → ℤ) (c : Fin n → R) (g0 : Fin n → R) (t t' : ℕ)
    (st : (Fin n → R) × (Fin (2 ^ (L + 1)) → R)) : Prop :=
  (∀ i : Fin n, (i : ℕ) < t → st.1 i = gammaSpec y c i) ∧
  (∀ i : Fin n, t ≤ (i : ℕ) → st.1 i = g0 i) ∧
  ∀ p : Fin (2 ^ (L + 1)), st.2 p = bufSpec L y c t' ((p : ℕ) : ℤ)

theorem dpos_read_bounds (y : Fin n → ℤ) (hy : ∀ i, 1 ≤ y i ∧ y i ≤ 2 ^ L) (i : Fin n)
    {l : ℕ} (hl : l < L) (hv : ((y i - 1) / 2 ^ l) % 2 = 1) :
    0 ≤ dpos L l ((y i - 1) / 2 ^ l - 1) ∧ dpos L l ((y i - 1) / 2 ^ l - 1) < 2 ^ (L + 1) := by
  have hyi := hy i
  have b := div_pow_bounds (L := L) (l := l) hl.le (m := y i - 1) (by omega) (by omega)
  exact dpos_bounds hl.le (by omega) (by omega)

theorem dpos_write_bounds (y : Fin n → ℤ) (hy : ∀ i, 1 ≤ y i ∧ y i ≤ 2 ^ L) (i : Fin n)
    {l : ℕ} (hl : l < L) :
    0 ≤ dpos L l ((y i - 1) / 2 ^ l) ∧ dpos L l ((y i - 1) / 2 ^ l) < 2 ^ (L + 1) := by
  have hyi := hy i
  have b := div_pow_bounds (L := L) (l := l) hl.le (m := y i - 1) (by omega) (by omega)
  exact dpos_bounds hl.le b.1 b.2

theorem dyadStep_inv (y : Fin n → ℤ) (c g0 : Fin n → R) (hy : ∀ i, 1 ≤ y i ∧ y i ≤ 2 ^ L)
    (i : Fin n) (st : (Fin n → R) × (Fin (2 ^ (L + 1)) → R)) (h : DyadInv L y c g0 i i st) :
    ∃ st', dyadStep y c (posSums L) st i = .ok st' ∧ DyadInv L y c g0 (i + 1) (i + 1) st' := by
  obtain ⟨g', s'⟩ := st
  obtain ⟨hg, hg0, hs⟩ := h
  simp only at hg hs hg0
  have hrd : ((List.finRange L).filter (fun l : Fin L => validPosition (y i) l)).mapM
      (fun l => rd s' (positions3b (posSums L) (y i) l))
      = .ok (((List.finRange L).filter (fun l : Fin L => validPosition (y i) l)).map
        (fun l : Fin L => bufSpec L y c i (dpos L l ((y i - 1) / 2 ^ (l : ℕ) - 1)))) := by
    apply mapM_ok
    intro l hl
    have hv : ((y i - 1) / 2 ^ (l : ℕ)) % 2 = 1 :=
      (validPosition_iff _ _).1 (by simpa using hl)
    have b := dpos_read_bounds y hy i l.2 hv
    rw [positions3b_eq, rd_ok s' _ ⟨_, toNat_lt_len b⟩ (by simp [b.1]), hs]
    simp [b.1]
  have hfa : fancyAdd s' (positions3a (posSums L) (y i)) (c i)
      = .ok (fun p => if ∃ l, positions3a (posSums L) (y i) l = ((p : ℕ) : ℤ)
          then s' p + c i else s' p) := by
    rw [fancyAdd, if_pos]
    intro l
    rw [positions3a_eq]
    have := dpos_write_bounds y hy i l.2
    push_cast
    exact this
  refine ⟨(_, _), by simp only [dyadStep, hrd, hfa, Except.ok_bind', Except.pure_eq]; rfl,
    ?_, ?_, ?_⟩
  · intro i' hi'
    by_cases h : i' = i
    · subst h
      simp only [Function.update_self]
      rw [list_sum_filter_finRange, ← sum_levels y c hy i', Finset.sum_range]
      apply Finset.sum_congr rfl
      intro l _
      simp only [validPosition_iff]
      split_ifs with hv
      · exact bufSpec_read y c hy i' i' l l.2 hv
      · rfl
    · have : (i' : ℕ) ≠ i := fun h' => h (Fin.ext h')
      simp only [Function.update_of_ne h]
      exact hg i' (by omega)
  · intro i' hi'
    have : i' ≠ i := fun h' => by subst h'; omega
    simp only [Function.update_of_ne this]
    exact hg0 i' (by omega)
  · intro p
    have : (∃ l : Fin L, positions3a (posSums L) (y i) l = ((p : ℕ) : ℤ))
        ↔ ∃ l < L, dpos L l ((y i - 1) / 2 ^ l) = ((p : ℕ) : ℤ) := by
      constructor
      · rintro ⟨l, hl⟩
        exact ⟨l, l.2, by rw [← positions3a_eq]; exact hl⟩
      · rintro ⟨l, hl, h⟩
        exact ⟨⟨l, hl⟩, by rw [positions3a_eq]; exact h⟩
    simp only [bufSpec_succ, this, hs]
    split_ifs <;> simp

/-- The uncompiled loop never fails and computes the specification. -/
theorem dyadUpdate_eq (y : Fin n → ℤ) (c g : Fin n → R) (hy : ∀ i, 1 ≤ y i ∧ y i ≤ 2 ^ L)
    (s : Fin (2 ^ (L + 1)) → R) :
    dyadUpdate y c g L s (posSums L) = .ok (gammaSpec y c) := by
  obtain ⟨st, e, hP⟩ := foldlM_finRange_inv n (dyadStep y c (posSums L))
    (fun t => DyadInv L y c g t t) (g, fun _ => 0)
    ⟨fun i hi => absurd hi (Nat.not_lt_zero _), fun _ _ => rfl,
      fun p => (bufSpec_zero y c _).symm⟩ (fun i st h => dyadStep_inv y c g hy i st h)
  simp only [dyadUpdate, e, Except.ok_bind', Except.pure_eq]
  congr 1
  funext i
  exact hP.1 i i.2

/-- Offset lookup in the compiled loop. -/
theorem compiled_offset {l : ℕ} (hl : l < L) :
    compiledOffset (posSums L) l = .ok (off L l) := by
  unfold compiledOffset
  split_ifs with h
  · rw [rd_ok _ _ ⟨l - 1, by omega⟩ (by simp only; omega), posSums_eq, off]
    congr 3
    simp only
    omega
  · have : l = 0 := by omega
    subst this
    simp [off]

theorem compiledStep3a_eq (y : Fin n → ℤ) (c : Fin n → R) (hy : ∀ i, 1 ≤ y i ∧ y i ≤ 2 ^ L)
    (i : Fin n) (s : Fin (2 ^ (L + 1)) → R)
    (hs : ∀ p, s p = bufSpec L y c i ((p : ℕ) : ℤ)) :
    ∃ s', compiledStep3a y c L (posSums L) (i + 1) s = .ok s' ∧
      ∀ p, s' p = bufSpec L y c (i + 1) ((p : ℕ) : ℤ) := by
  obtain ⟨s', e, h⟩ := foldlM_range_inv L (compiledBody3a y c (posSums L) (i + 1))
    (fun t s' => ∀ p, s' p = s p +
      if ∃ l < t, dpos L l ((y i - 1) / 2 ^ l) = ((p : ℕ) : ℤ) then c i else 0) s
    (by simp) (by
      intro l hl s1 h1
      have b := dpos_write_bounds y hy i hl
      have hpos : (⌈(y i : ℚ) / 2 ^ l⌉ - 1 + off L l) = dpos L l ((y i - 1) / 2 ^ l) := by
        rw [ceil_div_pow, dpos]; ring
      unfold compiledBody3a
      rw [rd_ok y _ i (by push_cast; ring), rd_ok c _ i (by push_cast; ring)]
      simp only [Except.ok_bind', compiled_offset hl, hpos]
      rw [rd_ok s1 _ ⟨_, toNat_lt_len b⟩ (by simp [b.1])]
      simp only [Except.ok_bind']
      rw [wr_ok s1 _ _ ⟨_, toNat_lt_len b⟩ (by simp [b.1])]
      refine ⟨_, rfl, fun p => ?_⟩
      by_cases hp : p = ⟨_, toNat_lt_len b⟩
      · have hp' : ((p : ℕ) : ℤ) = dpos L l ((y i - 1) / 2 ^ l) := by rw [hp]; simp [b.1]
        rw [hp, Function.update_self, ← hp, h1]
        have hno : ¬ ∃ l' < l, dpos L l' ((y i - 1) / 2 ^ l') = ((p : ℕ) : ℤ) := by
          rintro ⟨l', hl', h'⟩
          have hyi := hy i
          have b1 := div_pow_bounds (L := L) (l := l) hl.le (m := y i - 1) (by omega) (by omega)
          have b2 := div_pow_bounds (L := L) (l := l') (by omega) (m := y i - 1) (by omega)
            (by omega)
          have := (dpos_inj (by omega) hl.le b2.1 b2.2 b1.1 b1.2 (h'.trans hp')).1
          omega
        have hyes : ∃ l' < l + 1, dpos L l' ((y i - 1) / 2 ^ l') = ((p : ℕ) : ℤ) :=
          ⟨l, by omega, hp'.symm⟩
        rw [if_neg hno, if_pos hyes, add_zero]
      · rw [Function.update_of_ne hp, h1]
        have hne : dpos L l ((y i - 1) / 2 ^ l) ≠ ((p : ℕ) : ℤ) := by
          intro h'
          apply hp
          ext
          simp [h']
        congr 1
        apply if_congr _ rfl rfl
        constructor
        · rintro ⟨l', hl', h'⟩
          exact ⟨l', by omega, h'⟩
        · rintro ⟨l', hl', h'⟩
          refine ⟨l', ?_, h'⟩
          rcases Nat.lt_succ_iff_lt_or_eq.1 hl' with h2 | h2
          · exact h2
          · subst h2; exact absurd h' hne)
  refine ⟨s', e, fun p => ?_⟩
  rw [h p, bufSpec_succ, hs]

theorem compiledStep3bc_eq (y : Fin n → ℤ) (c g : Fin n → R)
    (hy : ∀ i, 1 ≤ y i ∧ y i ≤ 2 ^ L) (i : Fin n) (s : Fin (2 ^ (L + 1)) → R)
    (hs : ∀ p, s p = bufSpec L y c i ((p : ℕ) : ℤ)) :
    compiledStep3bc y L (posSums L) i s g
      = .ok (Function.update g i (g i + gammaSpec y c i)) := by
  obtain ⟨g', e, h⟩ := foldlM_range_inv L (compiledBody3bc y (posSums L) i s)
    (fun t g' => g' = Function.update g i (g i +
      ∑ l ∈ Finset.range t, if ((y i - 1) / 2 ^ l) % 2 = 1 then
        (∑ j : Fin n, if (j : ℕ) < i ∧ (y j - 1) / 2 ^ l + 1 = (y i - 1) / 2 ^ l
          then c j else 0) else 0)) g (by simp) (by
      rintro l hl _ rfl
      unfold compiledBody3bc
      rw [rd_ok y _ i rfl]
      simp only [Except.ok_bind', floor_div_pow]
      by_cases hv : ((y i - 1) / 2 ^ l) % 2 = 1
      · have hv' : ((y i - 1) / 2 ^ l - 1) % 2 = 0 := by omega
        have b := dpos_read_bounds y hy i hl hv
        have hp : (y i - 1) / 2 ^ l - 1 + off L l = dpos L l ((y i - 1) / 2 ^ l - 1) := rfl
        rw [if_pos hv', compiled_offset hl]
        simp only [Except.ok_bind', hp]
        rw [rd_ok _ _ i rfl]
        simp only [Except.ok_bind']
        rw [rd_ok s _ ⟨_, toNat_lt_len b⟩ (by simp [b.1])]
        simp only [Except.ok_bind']
        rw [wr_ok _ _ _ i rfl, hs]
        refine ⟨_, rfl, ?_⟩
        have : (((dpos L l ((y i - 1) / 2 ^ l - 1)).toNat : ℕ) : ℤ)
            = dpos L l ((y i - 1) / 2 ^ l - 1) := by simp [b.1]
        simp only [this, Function.update_self, Function.update_idem]
        rw [Finset.sum_range_succ, if_pos hv, bufSpec_read y c hy i i l hl hv, add_assoc]
      · have hv' : ¬ ((y i - 1) / 2 ^ l - 1) % 2 = 0 := by omega
        rw [if_neg hv']
        refine ⟨_, rfl, ?_⟩
        rw [Finset.sum_range_succ, if_neg hv, add_zero])
  have e' : compiledStep3bc y L (posSums L) i s g = .ok g' := e
  rw [e', h, sum_levels y c hy i]

theorem gammaSpec_zero (y : Fin n → ℤ) (c : Fin n → R) (i : Fin n) (h : (i : ℕ) = 0) :
    gammaSpec y c i = 0 := by
  apply Finset.sum_eq_zero
  intro j _
  rw [if_neg]
  rintro ⟨h1, _⟩
  have := Fin.lt_def.1 h1
  omega

/-- The compiled loop never fails and, started from zeros, computes the specification. -/
theorem dyadUpdateCompiled_eq (y : Fin n → ℤ) (c : Fin n → R)
    (hy : ∀ i, 1 ≤ y i ∧ y i ≤ 2 ^ L) (s : Fin (2 ^ (L + 1)) → R) :
    dyadUpdateCompiled y c (fun _ => 0) L s (posSums L) = .ok (gammaSpec y c) := by
  obtain ⟨st, e, hP⟩ := foldlM_inv (dyadStepCompiled y c (posSums L)) (List.range' 1 (n - 1))
    (fun t => DyadInv L y c (fun _ => 0) (t + 1) t)
    ((fun _ => 0), fun _ => 0)
    ⟨fun i hi => by
        simp only
        rw [gammaSpec_zero y c i (by omega)], fun _ _ => rfl,
      fun p => (bufSpec_zero y c _).symm⟩ (by
      rintro k hk ⟨g', s'⟩ ⟨hg, hg0, hs⟩
      simp only at hg hg0 hs
      have hk' : k < n - 1 := by simpa using hk
      have hk1 : k + 1 < n := by omega
      have el : (List.range' 1 (n - 1))[k] = k + 1 := by simp [Nat.add_comm]
      rw [el]
      obtain ⟨s1, e1, h1⟩ := compiledStep3a_eq y c hy ⟨k, by omega⟩ s' hs
      have e2 := compiledStep3bc_eq y c g' hy ⟨k + 1, hk1⟩ s1 h1
      simp only at e1 e2
      refine ⟨(_, s1), by simp only [dyadStepCompiled, e1, e2, Except.ok_bind', Except.pure_eq]; rfl,
        ?_, ?_, h1⟩
      · intro i hi
        by_cases h : i = ⟨k + 1, hk1⟩
        · rw [h]
          simp only [Function.update_self]
          rw [hg0 _ (by simp), zero_add]
        · have : (i : ℕ) ≠ k + 1 := fun h' => h (Fin.ext h')
          simp only [Function.update_of_ne h]
          exact hg i (by omega)
      · intro i hi
        have : i ≠ ⟨k + 1, hk1⟩ := fun h' => by
          rw [h'] at hi; simp at hi
        simp only [Function.update_of_ne this]
        exact hg0 i (by omega))
  simp only [dyadUpdateCompiled, e, Except.ok_bind', Except.pure_eq]
  congr 1
  funext i
  apply hP.1 i
  simp only [List.length_range']
  have := i.2
  omega

end loop

end Dcor

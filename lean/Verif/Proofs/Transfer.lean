/-
From `float64` with limits for the exponent to `float64` without: finite results agree if nothing underflows.
-/
import Verif.Proofs.NonFinite
import Verif.Proofs.Range64
import Verif.Proofs.ParametricMerge
import Verif.Proofs.Safety

namespace Dcor

open F64

/-- `a` is the multiple `q` of `2 ^ -g`, or it is not finite. -/
structure RelG (g : ℤ) (a : F64) (q : ℚ) : Prop where
  grid : OnGrid g q
  eq : a = fin q ∨ ¬ a.Finite

namespace RelG

variable {g g' : ℤ} {a b : F64} {q r : ℚ}

theorem mono (h : RelG g a q) (hg : g ≤ g') : RelG g' a q := ⟨h.grid.mono hg, h.eq⟩

theorem of_fin (h : OnGrid g q) : RelG g (fin q) q := ⟨h, Or.inl rfl⟩

theorem round (h : OnGrid 1074 q ∨ 2 ^ (-1022 : ℤ) ≤ |q|) (hg : OnGrid g (round64 q)) :
    RelG g (F64.round q) (round64 q) := by
  refine ⟨hg, ?_⟩
  rw [round_eq h]
  split_ifs
  · exact Or.inr id
  · exact Or.inl rfl

theorem ofInt (k : ℤ) : RelG 0 (F64.round (k : ℚ)) (round64 k) :=
  round (Or.inl ((OnGrid.int k).mono (by norm_num))) (OnGrid.int k).round

theorem neg (h : RelG g a q) : RelG g (F64.neg a) (-q) := by
  refine ⟨h.grid.neg, ?_⟩
  rcases h.eq with rfl | h
  · exact Or.inl rfl
  · right
    rcases not_finite.1 h with rfl | ⟨s, rfl⟩ <;> exact id

theorem add_not_finite_left (h : ¬ a.Finite) (b : F64) : ¬ (F64.add a b).Finite := by
  rcases not_finite.1 h with rfl | ⟨s, rfl⟩
  · rw [nan_add]; exact id
  · rcases inf_add s b with h | h <;> (rw [h]; exact id)

theorem add_not_finite_right (h : ¬ b.Finite) (a : F64) : ¬ (F64.add a b).Finite := by
  rcases not_finite.1 h with rfl | ⟨s, rfl⟩
  · rw [add_nan]; exact id
  · rcases add_inf a s with h | h <;> (rw [h]; exact id)

theorem mul_not_finite_left (h : ¬ a.Finite) (b : F64) : ¬ (F64.mul a b).Finite := by
  rcases not_finite.1 h with rfl | ⟨s, rfl⟩
  · rw [nan_mul]; exact id
  · cases b with
    | nan => exact id
    | inf t => exact id
    | fin q =>
      show ¬ (if q = 0 then nan else inf (s != decide (q < 0))).Finite
      split_ifs <;> exact id

theorem mul_not_finite_right (h : ¬ b.Finite) (a : F64) : ¬ (F64.mul a b).Finite := by
  rcases not_finite.1 h with rfl | ⟨s, rfl⟩
  · rw [mul_nan]; exact id
  · cases a with
    | nan => exact id
    | inf t => exact id
    | fin q =>
      show ¬ (if q = 0 then nan else inf (decide (q < 0) != s)).Finite
      split_ifs <;> exact id

theorem add (h : RelG g a q) (h' : RelG g b r) (hg : g ≤ 1074) : RelG g (F64.add a b) (round64 (q + r)) := by
  have hgr := h.grid.add h'.grid
  rcases h.eq with rfl | ha
  · rcases h'.eq with rfl | hb
    · exact round (Or.inl (hgr.mono hg)) hgr.round
    · exact ⟨hgr.round, Or.inr (add_not_finite_right hb _)⟩
  · exact ⟨hgr.round, Or.inr (add_not_finite_left ha _)⟩

theorem sub (h : RelG g a q) (h' : RelG g b r) (hg : g ≤ 1074) : RelG g (F64.sub a b) (round64 (q - r)) := by
  rw [sub_eq_add_neg]
  exact h.add h'.neg hg

theorem mul (h : RelG g a q) (h' : RelG g' b r) (hg : g + g' ≤ 1074) :
    RelG (g + g') (F64.mul a b) (round64 (q * r)) := by
  have hgr := h.grid.mul h'.grid
  rcases h.eq with rfl | ha
  · rcases h'.eq with rfl | hb
    · exact round (Or.inl (hgr.mono hg)) hgr.round
    · exact ⟨hgr.round, Or.inr (mul_not_finite_right hb _)⟩
  · exact ⟨hgr.round, Or.inr (mul_not_finite_left ha _)⟩

theorem imul (h : RelG g a q) (k : ℤ) (hg : g ≤ 1074) :
    RelG g (F64.mul (F64.round (k : ℚ)) a) (round64 (round64 k * q)) := by
  have := (ofInt k).mul h (by omega)
  rwa [zero_add] at this

/-- Small integers are numbers of the format. -/
theorem ofInt_eq {k : ℤ} {M : ℕ} (hk : |k| ≤ 2 ^ M) (hM : M ≤ 1023) :
    F64.round (k : ℚ) = fin (round64 k) := by
  rw [round_eq (Or.inl ((OnGrid.int k).mono (by norm_num))), if_neg]
  have : |(k : ℚ)| ≤ 2 ^ (M : ℤ) := by
    have : ((|k| : ℤ) : ℚ) ≤ 2 ^ M := by exact_mod_cast hk
    rwa [Int.cast_abs, ← zpow_natCast] at this
  have := round64_le_pow this
  have h2 : (2 : ℚ) ^ (M : ℤ) ≤ 2 ^ (1023 : ℤ) := zpow_le_zpow_right₀ (by norm_num) (by exact_mod_cast hM)
  have h3 : (2 : ℚ) ^ (1023 : ℤ) < 2 ^ 1024 := by
    rw [show (2 : ℚ) ^ 1024 = 2 ^ (1024 : ℤ) from rfl]
    exact zpow_lt_zpow_right₀ (by norm_num) (by norm_num)
  exact not_le.2 (this.trans_lt (h2.trans_lt h3))

theorem div_not_finite (h : ¬ a.Finite) (q : ℚ) : ¬ (F64.div a (fin q)).Finite := by
  rcases not_finite.1 h with rfl | ⟨s, rfl⟩
  · rw [nan_div]; exact id
  · exact id

/-- Division by an integer. -/
theorem idiv (h : RelG g a q) {k : ℤ} {M : ℕ} (hk0 : k ≠ 0) (hk : |k| ≤ 2 ^ M) (hM : M ≤ 1023) (hg : g + M ≤ 1022) :
    RelG (g + M + 52) (F64.div a (F64.round (k : ℚ))) (round64 (q / round64 k)) := by
  have hk' : round64 (k : ℚ) ≠ 0 := fun h => hk0 (by exact_mod_cast round64_eq_zero.1 h)
  rw [ofInt_eq hk hM]
  have low : q = 0 ∨ 2 ^ (-(g + M)) ≤ |q / round64 k| := by
    by_cases hq : q = 0
    · exact Or.inl hq
    · right
      have h1 := h.grid.le_abs hq
      have h2 : |round64 (k : ℚ)| ≤ 2 ^ (M : ℤ) := by
        apply round64_le_pow
        have : ((|k| : ℤ) : ℚ) ≤ 2 ^ M := by exact_mod_cast hk
        rwa [Int.cast_abs, ← zpow_natCast] at this
      rw [abs_div, le_div_iff₀ (abs_pos.2 hk')]
      calc (2 : ℚ) ^ (-(g + M)) * |round64 (k : ℚ)| ≤ 2 ^ (-(g + M)) * 2 ^ (M : ℤ) :=
            mul_le_mul_of_nonneg_left h2 (by positivity)
        _ = 2 ^ (-g) := by rw [← zpow_add₀ (by norm_num)]; congr 1; ring
        _ ≤ _ := h1
  have hgr : OnGrid (g + M + 52) (round64 (q / round64 k)) := by
    rcases low with rfl | low
    · rw [zero_div, round64_zero]; exact OnGrid.zero _
    · exact round64_grid low
  rcases h.eq with rfl | ha
  · show RelG _ (if round64 (k : ℚ) = 0 then _ else F64.round (q / round64 k)) _
    rw [if_neg hk']
    refine round ?_ hgr
    rcases low with rfl | low
    · rw [zero_div]; exact Or.inl (OnGrid.zero _)
    · exact Or.inr ((zpow_le_zpow_right₀ (by norm_num) (by omega)).trans low)
  · exact ⟨hgr, Or.inr (div_not_finite ha _)⟩

end RelG

/-! ### Square roots -/

theorem sqrt_not_finite {a r : F64} (h : F64.IsSqrt a r) (ha : ¬ a.Finite) : ¬ r.Finite := by
  rcases not_finite.1 ha with rfl | ⟨s, rfl⟩
  · rw [show r = nan from h]; exact id
  · rw [show r = if s then nan else inf false from h]
    cases s <;> exact id

theorem SqrtTo.grid {g : ℤ} {q r : ℚ} (h : SqrtTo q r) (hq : OnGrid (2 * g) q) : OnGrid (g + 52) r := by
  rcases h with ⟨_, rfl⟩ | ⟨h0, k, m, -, h2, rfl, -, -⟩
  · exact OnGrid.zero _
  · refine OnGrid.mono (g := k) ⟨m, by push_cast; rfl⟩ ?_
    have h1 := hq.le_abs h0.ne'
    rw [abs_of_pos h0] at h1
    have : (2 : ℚ) ^ (-(2 * g) + 2 * k) < 2 ^ (106 : ℤ) := by
      rw [zpow_add₀ (by norm_num), zpow_mul _ 2 k, show ((2 : ℚ) ^ (2 : ℤ)) = 4 by norm_num]
      exact (mul_le_mul_of_nonneg_right h1 (by positivity)).trans_lt h2
    have := (zpow_lt_zpow_iff_right₀ (by norm_num : (1 : ℚ) < 2)).1 this
    omega

/-! ### Sums and scalar products -/

/-- The value of a finite number. -/
def F64.toQ : F64 → ℚ
  | fin q => q
  | _ => 0

theorem F64.fin_toQ {a : F64} (h : a.Finite) : a = fin a.toQ := by
  cases a with
  | fin q => rfl
  | _ => exact absurd h id

theorem SumsTo.grid {g : ℤ} {l : List ℚ} {r : ℚ} (h : SumsTo l r) : (∀ a ∈ l, OnGrid g a) → OnGrid g r := by
  induction h with
  | nil => intro _; exact OnGrid.zero _
  | single a => intro h; exact h a (by simp)
  | add _ _ _ _ ih ih' =>
    intro h
    exact ((ih fun a ha => h a (by simp [ha])).add (ih' fun a ha => h a (by simp [ha]))).round
  | perm _ hp ih => intro h; exact ih fun a ha => h a (hp.mem_iff.1 ha)

theorem DotsTo.grid {g g' : ℤ} {l : List (ℚ × ℚ)} {r : ℚ} (h : DotsTo l r) :
    (∀ p ∈ l, OnGrid g p.1 ∧ OnGrid g' p.2) → OnGrid (g + g') r := by
  induction h with
  | nil => intro _; exact OnGrid.zero _
  | single a b =>
    intro h
    have := h (a, b) (by simp)
    exact (this.1.mul this.2).round
  | fma a b _ _ ih =>
    intro h
    have := h (a, b) (by simp)
    exact ((this.1.mul this.2).add (ih fun p hp => h p (by simp [hp]))).round
  | add _ _ _ _ ih ih' =>
    intro h
    exact ((ih fun p hp => h p (by simp [hp])).add (ih' fun p hp => h p (by simp [hp]))).round
  | perm _ hp ih => intro h; exact ih fun p hp' => h p (hp.mem_iff.1 hp')

theorem F64.Sums.not_finite {l : List F64} {r : F64} (h : Sums l r) : (∃ a ∈ l, ¬ a.Finite) → ¬ r.Finite := by
  induction h with
  | nil => rintro ⟨a, ha, _⟩; simp at ha
  | single a => rintro ⟨b, hb, h⟩; rwa [List.mem_singleton.1 hb] at h
  | add _ _ _ _ ih ih' =>
    rintro ⟨a, ha, h⟩
    rcases List.mem_append.1 ha with ha | ha
    · exact RelG.add_not_finite_left (ih ⟨a, ha, h⟩) _
    · exact RelG.add_not_finite_right (ih' ⟨a, ha, h⟩) _
  | perm _ hp ih => rintro ⟨a, ha, h⟩; exact ih ⟨a, hp.mem_iff.2 ha, h⟩

theorem F64.fma_not_finite {a b c : F64} (h : ¬ a.Finite ∨ ¬ b.Finite ∨ ¬ c.Finite) : ¬ (F64.fma a b c).Finite := by
  have key : ∀ a b : F64, ¬ a.Finite ∨ ¬ b.Finite → F64.fma a b c = F64.add (F64.mul a b) c := by
    intro a b h
    cases a <;> cases b <;> first | rfl | (exfalso; rcases h with h | h <;> exact h trivial)
  by_cases hab : ¬ a.Finite ∨ ¬ b.Finite
  · rw [key a b hab]
    exact RelG.add_not_finite_left (hab.elim (RelG.mul_not_finite_left · _) (RelG.mul_not_finite_right · _)) _
  · have hc : ¬ c.Finite := by tauto
    push Not at hab
    rw [F64.fin_toQ hab.1, F64.fin_toQ hab.2]
    rcases F64.not_finite.1 hc with rfl | ⟨s, rfl⟩
    · rw [nan_fma_add]; exact id
    · exact id

theorem F64.Dots.not_finite {l : List (F64 × F64)} {r : F64} (h : Dots l r) :
    (∃ p ∈ l, ¬ p.1.Finite ∨ ¬ p.2.Finite) → ¬ r.Finite := by
  induction h with
  | nil => rintro ⟨a, ha, _⟩; simp at ha
  | single a b =>
    rintro ⟨p, hp, h⟩
    rw [List.mem_singleton.1 hp] at h
    exact h.elim (RelG.mul_not_finite_left · _) (RelG.mul_not_finite_right · _)
  | fma a b _ _ ih =>
    rintro ⟨p, hp, h⟩
    rcases List.mem_cons.1 hp with rfl | hp
    · exact F64.fma_not_finite (h.elim Or.inl (Or.inr ∘ Or.inl))
    · exact F64.fma_not_finite (Or.inr (Or.inr (ih ⟨p, hp, h⟩)))
  | add _ _ _ _ ih ih' =>
    rintro ⟨a, ha, h⟩
    rcases List.mem_append.1 ha with ha | ha
    · exact RelG.add_not_finite_left (ih ⟨a, ha, h⟩) _
    · exact RelG.add_not_finite_right (ih' ⟨a, ha, h⟩) _
  | perm _ hp ih => rintro ⟨a, ha, h⟩; exact ih ⟨a, hp.mem_iff.2 ha, h⟩

/-- Sums do not underflow. -/
theorem F64.Sums.rel {g : ℤ} (hg : g ≤ 1074) {L : List F64} {s : F64} (h : Sums L s) :
    (∀ a ∈ L, a.Finite ∧ OnGrid g a.toQ) → ∃ r, SumsTo (L.map toQ) r ∧ RelG g s r := by
  induction h with
  | nil => intro _; exact ⟨0, .nil, .of_fin (OnGrid.zero _)⟩
  | single a =>
    intro h
    have := h a (by simp)
    refine ⟨a.toQ, .single _, this.2, Or.inl (F64.fin_toQ this.1)⟩
  | add hl hl' _ _ ih ih' =>
    intro h
    obtain ⟨r, h1, h2⟩ := ih fun a ha => h a (by simp [ha])
    obtain ⟨r', h1', h2'⟩ := ih' fun a ha => h a (by simp [ha])
    rw [List.map_append]
    exact ⟨_, .add (by simpa using hl) (by simpa using hl') h1 h1', h2.add h2' hg⟩
  | perm _ hp ih =>
    intro h
    obtain ⟨r, h1, h2⟩ := ih fun a ha => h a (hp.mem_iff.1 ha)
    exact ⟨r, .perm h1 (hp.map _), h2⟩

/-- Scalar products do not underflow. -/
theorem F64.Dots.rel {g g' : ℤ} (hg : g + g' ≤ 1074) {L : List (F64 × F64)} {s : F64} (h : Dots L s) :
    (∀ p ∈ L, (p.1.Finite ∧ OnGrid g p.1.toQ) ∧ p.2.Finite ∧ OnGrid g' p.2.toQ) →
      ∃ r, DotsTo (L.map fun p => (toQ p.1, toQ p.2)) r ∧ RelG (g + g') s r := by
  induction h with
  | nil => intro _; exact ⟨0, .nil, .of_fin (OnGrid.zero _)⟩
  | single a b =>
    intro h
    have := h (a, b) (by simp)
    have ha : RelG g a a.toQ := ⟨this.1.2, Or.inl (F64.fin_toQ this.1.1)⟩
    have hb : RelG g' b b.toQ := ⟨this.2.2, Or.inl (F64.fin_toQ this.2.1)⟩
    exact ⟨_, .single _ _, ha.mul hb hg⟩
  | @fma a b l c hl _ ih =>
    intro h
    obtain ⟨r, h1, h2⟩ := ih fun a ha => h a (by simp [ha])
    have hab := h (a, b) (by simp)
    refine ⟨_, .fma _ _ (by simpa using hl) h1, ?_⟩
    have hgr := (hab.1.2.mul hab.2.2).add h2.grid
    rcases h2.eq with rfl | hc
    · have e : F64.fma a b (fin r) = F64.round (a.toQ * b.toQ + r) := by
        conv_lhs => rw [F64.fin_toQ (a := a) hab.1.1, F64.fin_toQ (a := b) hab.2.1]
        rfl
      rw [e]
      exact RelG.round (Or.inl (hgr.mono hg)) hgr.round
    · exact ⟨hgr.round, Or.inr (F64.fma_not_finite (Or.inr (Or.inr hc)))⟩
  | add hl hl' _ _ ih ih' =>
    intro h
    obtain ⟨r, h1, h2⟩ := ih fun a ha => h a (by simp [ha])
    obtain ⟨r', h1', h2'⟩ := ih' fun a ha => h a (by simp [ha])
    rw [List.map_append]
    exact ⟨_, .add (by simpa using hl) (by simpa using hl') h1 h1', h2.add h2' hg⟩
  | perm _ hp ih =>
    intro h
    obtain ⟨r, h1, h2⟩ := ih fun a ha => h a (hp.mem_iff.1 ha)
    exact ⟨r, .perm h1 (hp.map _), h2⟩

/-! ### The arithmetic without limits that belongs to an arithmetic with limits -/

/-- Square root of finite numbers. -/
def lowerSqrt (sqrt : F64 → F64) (q : ℚ) : ℚ := (sqrt (fin q)).toQ

open Classical in
/-- Sum of finite numbers in the same order, unless it overflows. -/
noncomputable def lowerSum (sum : List F64 → F64) (l : List ℚ) : ℚ :=
  if h : ∃ r, SumsTo l r ∧ sum (l.map fin) = fin r then h.choose else seqSum64 l

open Classical in
/-- Scalar product of finite numbers in the same order, unless it overflows or underflows. -/
noncomputable def lowerDot (dot : List (F64 × F64) → F64) (l : List (ℚ × ℚ)) : ℚ :=
  if h : ∃ r, DotsTo l r ∧ dot (l.map fun p => (fin p.1, fin p.2)) = fin r then h.choose else seqDot64 l

variable {sqrt : F64 → F64} {sum : List F64 → F64} {dot : List (F64 × F64) → F64} {n m p : ℕ} {g g' : ℤ}

theorem lower_float64 (h : IsIeee64 sqrt sum dot) : IsFloat64 (lowerSqrt sqrt) (lowerSum sum) (lowerDot dot) where
  sqrt q hq := by
    have := h.sqrt (fin q)
    change if q < 0 then sqrt (fin q) = nan else ∃ s, SqrtTo q s ∧ sqrt (fin q) = fin s at this
    rw [if_neg (not_lt.2 hq)] at this
    obtain ⟨s, hs, e⟩ := this
    unfold lowerSqrt
    rw [e]
    exact hs
  sum l := by
    unfold lowerSum
    split_ifs with h
    · exact h.choose_spec.1
    · exact seqSum64_sumsTo l
  dot l := by
    unfold lowerDot
    split_ifs with h
    · exact h.choose_spec.1
    · exact seqDot64_dotsTo l

theorem lowerSum_eq {l : List ℚ} {r : ℚ} (h : SumsTo l r) (e : sum (l.map fin) = fin r) :
    sum (l.map fin) = fin (lowerSum sum l) := by
  unfold lowerSum
  rw [dif_pos ⟨r, h, e⟩]
  exact (Exists.choose_spec (⟨r, h, e⟩ : ∃ r, SumsTo l r ∧ sum (l.map fin) = fin r)).2

theorem lowerDot_eq {l : List (ℚ × ℚ)} {r : ℚ} (h : DotsTo l r) (e : dot (l.map fun p => (fin p.1, fin p.2)) = fin r) :
    dot (l.map fun p => (fin p.1, fin p.2)) = fin (lowerDot dot l) := by
  unfold lowerDot
  rw [dif_pos ⟨r, h, e⟩]
  exact (Exists.choose_spec (⟨r, h, e⟩ : ∃ r, DotsTo l r ∧ dot (l.map fun p => (fin p.1, fin p.2)) = fin r)).2

theorem forall₂_grid {L : List F64} {l : List ℚ} (hl : List.Forall₂ (RelG g) L l) : ∀ a ∈ l, OnGrid g a := by
  induction hl with
  | nil => simp
  | cons h _ ih =>
    intro a ha
    rcases List.mem_cons.1 ha with rfl | ha
    · exact h.grid
    · exact ih a ha

theorem forall₂_fin {L : List F64} {l : List ℚ} (hl : List.Forall₂ (RelG g) L l) (hf : ∀ a ∈ L, a.Finite) :
    L = l.map fin := by
  induction hl with
  | nil => rfl
  | cons h _ ih =>
    rw [List.map_cons, ih fun a ha => hf a (by simp [ha])]
    congr 1
    exact h.eq.resolve_right (not_not.2 (hf _ (by simp)))

theorem sum_relG (h : IsIeee64 sqrt sum dot) (hg : g ≤ 1074) {L : List F64} {l : List ℚ}
    (hl : List.Forall₂ (RelG g) L l) : RelG g (sum L) (lowerSum sum l) := by
  have hgrid : OnGrid g (lowerSum sum l) := ((lower_float64 h).sum l).grid (forall₂_grid hl)
  refine ⟨hgrid, ?_⟩
  by_cases hf : ∀ a ∈ L, a.Finite
  · have e := forall₂_fin hl hf
    obtain ⟨r, h1, h2⟩ := (h.sum L).rel hg (by
      intro a ha
      refine ⟨hf a ha, ?_⟩
      rw [e] at ha
      obtain ⟨q, hq, rfl⟩ := List.mem_map.1 ha
      exact forall₂_grid hl q hq)
    rw [e, List.map_map, show toQ ∘ fin = id from rfl, List.map_id] at h1
    rw [e] at h2 ⊢
    rcases h2.eq with h2 | h2
    · exact Or.inl (lowerSum_eq h1 h2)
    · exact Or.inr h2
  · push Not at hf
    exact Or.inr ((h.sum L).not_finite hf)

theorem dot_relG (h : IsIeee64 sqrt sum dot) (hg : g + g' ≤ 1074) {L : List (F64 × F64)} {l : List (ℚ × ℚ)}
    (hl : List.Forall₂ (fun p q => RelG g p.1 q.1 ∧ RelG g' p.2 q.2) L l) :
    RelG (g + g') (dot L) (lowerDot dot l) := by
  have hgr : ∀ p ∈ l, OnGrid g p.1 ∧ OnGrid g' p.2 := by
    clear hg
    induction hl with
    | nil => simp
    | cons h _ ih =>
      intro a ha
      rcases List.mem_cons.1 ha with rfl | ha
      · exact ⟨h.1.grid, h.2.grid⟩
      · exact ih a ha
  have hgrid : OnGrid (g + g') (lowerDot dot l) := ((lower_float64 h).dot l).grid hgr
  refine ⟨hgrid, ?_⟩
  by_cases hf : ∀ p ∈ L, p.1.Finite ∧ p.2.Finite
  · have e : L = l.map fun p => (fin p.1, fin p.2) := by
      clear hgr hgrid hg
      induction hl with
      | nil => rfl
      | @cons a b _ _ h _ ih =>
        have hf' := hf a (by simp)
        rw [List.map_cons, ← ih fun a ha => hf a (by simp [ha])]
        congr 1
        exact Prod.ext (h.1.eq.resolve_right (not_not.2 hf'.1)) (h.2.eq.resolve_right (not_not.2 hf'.2))
    obtain ⟨r, h1, h2⟩ := (h.dot L).rel (g := g) (g' := g') hg (by
      intro a ha
      have := hf a ha
      rw [e] at ha
      obtain ⟨q, hq, rfl⟩ := List.mem_map.1 ha
      exact ⟨⟨this.1, (hgr q hq).1⟩, this.2, (hgr q hq).2⟩)
    rw [e, List.map_map] at h1
    have e' : ((fun p : F64 × F64 => (toQ p.1, toQ p.2)) ∘ fun p : ℚ × ℚ => (fin p.1, fin p.2)) = id := rfl
    rw [e', List.map_id] at h1
    rw [e] at h2 ⊢
    rcases h2.eq with h2 | h2
    · exact Or.inl (lowerDot_eq h1 h2)
    · exact Or.inr h2
  · push Not at hf
    obtain ⟨p, hp, hf⟩ := hf
    exact Or.inr ((h.dot L).not_finite ⟨p, hp, by tauto⟩)

/-! ### Vectors -/

local notation "I" => ieee64 sqrt sum dot
local notation "B" => binary64 (lowerSqrt sqrt) (lowerSum sum) (lowerDot dot)

theorem vsum_relG (h : IsIeee64 sqrt sum dot) (hg : g ≤ 1074) {v : Fin n → F64} {w : Fin n → ℚ}
    (hv : ∀ i, RelG g (v i) (w i)) : RelG g (Arith.vsum I v) (Arith.vsum B w) := by
  unfold Arith.vsum
  refine sum_relG h hg ?_
  rw [List.ofFn_eq_map, List.ofFn_eq_map, List.forall₂_map_left_iff, List.forall₂_map_right_iff, List.forall₂_same]
  exact fun i _ => hv i

theorem vdot_relG (h : IsIeee64 sqrt sum dot) (hg : g + g' ≤ 1074) {v v' : Fin n → F64} {w w' : Fin n → ℚ}
    (hv : ∀ i, RelG g (v i) (w i)) (hv' : ∀ i, RelG g' (v' i) (w' i)) :
    RelG (g + g') (Arith.vdot I v v') (Arith.vdot B w w') := by
  unfold Arith.vdot
  refine dot_relG h hg ?_
  rw [List.ofFn_eq_map, List.ofFn_eq_map, List.forall₂_map_left_iff, List.forall₂_map_right_iff, List.forall₂_same]
  exact fun i _ => ⟨hv i, hv' i⟩

theorem cumsum_relG (hg : g ≤ 1074) {v : Fin n → F64} {w : Fin n → ℚ}
    (hv : ∀ i, RelG g (v i) (w i)) (i : Fin n) : RelG g (Arith.cumsum I v i) (Arith.cumsum B w i) := by
  obtain ⟨k, hk⟩ := i
  show RelG g (Arith.cumsumAt I v k hk) (Arith.cumsumAt B w k hk)
  induction k with
  | zero => exact hv _
  | succ k ih => exact (ih (by omega)).add (hv _) hg

theorem forall₂_flatMap {α β γ : Type} {P : β → γ → Prop} {f : α → List β} {f' : α → List γ} (l : List α)
    (h : ∀ a, List.Forall₂ P (f a) (f' a)) : List.Forall₂ P (l.flatMap f) (l.flatMap f') := by
  induction l with
  | nil => exact .nil
  | cons a l ih =>
    rw [List.flatMap_cons, List.flatMap_cons]
    exact List.rel_append (h a) ih

theorem mdot_relG (h : IsIeee64 sqrt sum dot) (hg : g + g' ≤ 1074) {a b : Fin n → Fin n → F64}
    {a' b' : Fin n → Fin n → ℚ} (ha : ∀ i j, RelG g (a i j) (a' i j)) (hb : ∀ i j, RelG g' (b i j) (b' i j)) :
    RelG (g + g') (Arith.mdot I a b) (Arith.mdot B a' b') := by
  unfold Arith.mdot
  refine dot_relG h hg (forall₂_flatMap _ fun i => ?_)
  rw [List.forall₂_map_left_iff, List.forall₂_map_right_iff, List.forall₂_same]
  exact fun j _ => ⟨ha i j, hb i j⟩

theorem sqrt_relG (h : IsIeee64 sqrt sum dot) {a : F64} {q : ℚ} (hq : 0 ≤ q) (ha : RelG (2 * g) a q) :
    RelG (g + 52) (sqrt a) (lowerSqrt sqrt q) := by
  refine ⟨((lower_float64 h).sqrt q hq).grid ha.grid, ?_⟩
  rcases ha.eq with rfl | ha
  · left
    have := h.sqrt (fin q)
    change if q < 0 then sqrt (fin q) = nan else ∃ s, SqrtTo q s ∧ sqrt (fin q) = fin s at this
    rw [if_neg (not_lt.2 hq)] at this
    obtain ⟨s, hs, e⟩ := this
    unfold lowerSqrt
    rw [e]
    rfl
  · exact Or.inr (sqrt_not_finite (h.sqrt a) ha)

theorem SumsTo.nonneg' {l : List ℚ} {r : ℚ} (h : SumsTo l r) : (∀ a ∈ l, 0 ≤ a) → 0 ≤ r := by
  induction h with
  | nil => intro _; exact le_rfl
  | single a => intro h; exact h a (by simp)
  | add _ _ _ _ ih ih' =>
    intro h
    exact round64_nonneg (add_nonneg (ih fun a ha => h a (by simp [ha])) (ih' fun a ha => h a (by simp [ha])))
  | perm _ hp ih => intro h; exact ih fun a ha => h a (hp.mem_iff.1 ha)

/-- Distances do not underflow. -/
theorem cdist_relG (h : IsIeee64 sqrt sum dot) (hg : 2 * g ≤ 1074) (hg0 : 0 ≤ g) {x : Fin n → Fin p → F64}
    {y : Fin m → Fin p → F64} {x' : Fin n → Fin p → ℚ} {y' : Fin m → Fin p → ℚ} (hx : ∀ i k, RelG g (x i k) (x' i k))
    (hy : ∀ i k, RelG g (y i k) (y' i k)) (i : Fin n) (j : Fin m) :
    RelG (g + 52) (Arith.cdist I x y i j) (Arith.cdist B x' y' i j) := by
  refine sqrt_relG h ?_ ?_
  · refine ((lower_float64 h).sum _).nonneg' fun a ha => ?_
    obtain ⟨k, rfl⟩ := (List.mem_ofFn' _ _).1 ha
    exact round64_nonneg (mul_self_nonneg _)
  · refine vsum_relG h hg fun k => ?_
    have := (hx i k).sub (hy j k) (by omega)
    have := this.mul this (by omega)
    rwa [← two_mul] at this

/-! ### From the terms to the results -/

theorem idiv_relG {a : F64} {q : ℚ} (ha : RelG g a q) {k : ℤ} {M : ℕ} (hk0 : k ≠ 0) (hk : |k| ≤ 2 ^ M)
    (hg0 : 0 ≤ g) (hg : g + M + 52 ≤ g') (hg' : g' ≤ 1074) : RelG g' (Arith.idiv I a k) (Arith.idiv B q k) :=
  (ha.idiv hk0 hk (by omega) (by omega)).mono hg

theorem divisors (bc : Bool) {N : ℕ} (hn0 : 0 < n) (hn : bc = true → 3 < n) (hN : n ≤ 2 ^ N) :
    ((n : ℤ) ≠ 0 ∧ |(n : ℤ)| ≤ 2 ^ N) ∧
    ((if bc then (n : ℤ) - 3 else n) ≠ 0 ∧ |if bc then (n : ℤ) - 3 else n| ≤ 2 ^ N) ∧
    ((if bc then ((n : ℤ) - 2) * (n - 3) else (n : ℤ) ^ 2) ≠ 0 ∧
      |if bc then ((n : ℤ) - 2) * (n - 3) else (n : ℤ) ^ 2| ≤ 2 ^ (2 * N)) ∧
    ((if bc then ((n : ℤ) - 1) * (n - 2) * (n - 3) else (n : ℤ) ^ 3) ≠ 0 ∧
      |if bc then ((n : ℤ) - 1) * (n - 2) * (n - 3) else (n : ℤ) ^ 3| ≤ 2 ^ (3 * N)) := by
  have hN' : (n : ℤ) ≤ 2 ^ N := by exact_mod_cast hN
  have h0 : (0 : ℤ) < n := by exact_mod_cast hn0
  rw [show (2 : ℤ) ^ (2 * N) = 2 ^ N * 2 ^ N by ring, show (2 : ℤ) ^ (3 * N) = 2 ^ N * 2 ^ N * 2 ^ N by ring]
  cases bc with
  | false =>
    simp only [Bool.false_eq_true, if_false]
    refine ⟨⟨h0.ne', by rwa [abs_of_pos h0]⟩, ⟨h0.ne', by rwa [abs_of_pos h0]⟩, ⟨by positivity, ?_⟩, ⟨by positivity, ?_⟩⟩
    · rw [abs_of_pos (by positivity), sq]; gcongr
    · rw [abs_of_pos (by positivity), show (n : ℤ) ^ 3 = n * n * n by ring]; gcongr
  | true =>
    have h3 : (3 : ℤ) < n := by exact_mod_cast hn rfl
    simp only [if_true]
    have p1 : (0 : ℤ) < n - 1 := by omega
    have p2 : (0 : ℤ) < n - 2 := by omega
    have p3 : (0 : ℤ) < n - 3 := by omega
    refine ⟨⟨h0.ne', by rwa [abs_of_pos h0]⟩, ⟨p3.ne', by rw [abs_of_pos p3]; omega⟩,
      ⟨(mul_pos p2 p3).ne', ?_⟩, ⟨(mul_pos (mul_pos p1 p2) p3).ne', ?_⟩⟩
    · rw [abs_of_pos (mul_pos p2 p3)]
      exact mul_le_mul (by omega) (by omega) p3.le (by positivity)
    · rw [abs_of_pos (mul_pos (mul_pos p1 p2) p3)]
      exact mul_le_mul (mul_le_mul (by omega) (by omega) p2.le (by positivity)) (by omega) p3.le (by positivity)

/-- `_dcov_from_terms` does not underflow. -/
theorem fromTerms_relG (h : IsIeee64 sqrt sum dot) (bc : Bool) {N : ℕ} (hn0 : 0 < n) (hn : bc = true → 3 < n)
    (hN : n ≤ 2 ^ N) {g0 ga gb G : ℤ} {mp aT bT : F64} {mp' aT' bT' : ℚ} {a b : Fin n → F64} {a' b' : Fin n → ℚ}
    (hmp : RelG g0 mp mp') (ha : ∀ i, RelG ga (a i) (a' i)) (haT : RelG ga aT aT') (hb : ∀ i, RelG gb (b i) (b' i))
    (hbT : RelG gb bT bT') (h0 : 0 ≤ g0) (ha0 : 0 ≤ ga) (hb0 : 0 ≤ gb) (hG0 : g0 + 2 * N + 104 ≤ G)
    (hG : ga + gb + 4 * N + 104 ≤ G) (hG' : G ≤ 1074) :
    RelG G (Arith.fromTerms I bc mp a aT b bT) (Arith.fromTerms B bc mp' a' aT' b' bT') := by
  obtain ⟨⟨d1, d1'⟩, ⟨d2, d2'⟩, ⟨d3, d3'⟩, d4, d4'⟩ := divisors bc hn0 hn hN
  have first := idiv_relG (sqrt := sqrt) (sum := sum) (dot := dot) (g' := G)
    (idiv_relG (sqrt := sqrt) (sum := sum) (dot := dot) (g' := g0 + N + 52) hmp d1 d1' h0 le_rfl (by omega))
    d2 d2' (by omega) (by omega) hG'
  have second := idiv_relG (sqrt := sqrt) (sum := sum) (dot := dot) (g' := G)
    (vdot_relG h (g := ga + N + 52) (g' := gb) (by omega) (fun i =>
      idiv_relG (sqrt := sqrt) (sum := sum) (dot := dot) (g' := ga + N + 52) (ha i) d1 d1' ha0 le_rfl (by omega)) hb)
    d3 d3' (by omega) (by push_cast; omega) hG'
  have third := idiv_relG (sqrt := sqrt) (sum := sum) (dot := dot) (g' := G)
    ((idiv_relG (sqrt := sqrt) (sum := sum) (dot := dot) (g' := ga + N + 52) haT d1 d1' ha0 le_rfl (by omega)).mul hbT
      (by omega))
    d4 d4' (by omega) (by push_cast; omega) hG'
  exact ((first.sub (second.imul 2 hG') hG').add third hG')

theorem SqrtTo.le_pow {q r : ℚ} {K : ℤ} (h : SqrtTo q r) (hq : q ≤ 4 ^ K) : r ≤ 2 ^ (K + 1) := by
  rcases h with ⟨_, rfl⟩ | ⟨h0, k, m, h1, h2, rfl, h3, -⟩
  · positivity
  · have hm : (m : ℚ) ≤ 2 ^ (k + K + 1) := by
      have h5 : q * 4 ^ k ≤ (2 ^ (k + K)) ^ 2 := by
        calc q * 4 ^ k ≤ 4 ^ K * 4 ^ k := mul_le_mul_of_nonneg_right hq (by positivity)
          _ = (2 ^ (k + K)) ^ 2 := by
            rw [show (4 : ℚ) = 2 ^ (2 : ℤ) by norm_num, ← zpow_mul, ← zpow_mul, ← zpow_add₀ (by norm_num),
              ← zpow_natCast, ← zpow_mul]
            congr 1
            push_cast
            ring
      obtain ⟨t, ht⟩ : ∃ t : ℚ, t = 2 ^ (k + K) := ⟨_, rfl⟩
      have ht0 : 0 < t := by rw [ht]; positivity
      rw [← ht] at h5
      have h6 : 2 * (m : ℚ) - 1 ≤ 2 * t := by
        by_contra hc
        push Not at hc
        nlinarith
      have h7 : (2 : ℚ) ^ 52 ≤ t := by
        by_contra hc
        push Not at hc
        nlinarith
      rw [zpow_add₀ (by norm_num), ← ht]
      linarith
    calc (m : ℚ) * 2 ^ (-k) ≤ 2 ^ (k + K + 1) * 2 ^ (-k) := mul_le_mul_of_nonneg_right hm (by positivity)
      _ = 2 ^ (K + 1) := by rw [← zpow_add₀ (by norm_num)]; congr 1; ring

theorem ofInt_zero : F64.round ((0 : ℤ) : ℚ) = fin 0 := by decide +kernel

/-- `_sqrt` of a finite number. -/
theorem sqrtClip_ieee (h : IsIeee64 sqrt sum dot) {q : ℚ} (hq : 0 ≤ q) :
    Arith.sqrtClip I (fin q) = fin (Arith.sqrtClip B q) ∧ SqrtTo q (Arith.sqrtClip B q) := by
  have e1 : Arith.sqrtClip I (fin q) = sqrt (fin q) := by
    show sqrt (if F64.lt (fin q) (F64.round ((0 : ℤ) : ℚ)) = true then _ else fin q) = _
    rw [ofInt_zero, if_neg]
    simpa [F64.lt] using hq
  have e2 : Arith.sqrtClip B q = lowerSqrt sqrt q := by
    show lowerSqrt sqrt (if decide (q < round64 ((0 : ℤ) : ℚ)) = true then _ else q) = _
    rw [Int.cast_zero, round64_zero, if_neg]
    simpa using hq
  rw [e1, e2]
  have := h.sqrt (fin q)
  change if q < 0 then sqrt (fin q) = nan else ∃ s, SqrtTo q s ∧ sqrt (fin q) = fin s at this
  rw [if_neg (not_lt.2 hq)] at this
  obtain ⟨s, hs, e⟩ := this
  unfold lowerSqrt
  rw [e]
  exact ⟨rfl, hs⟩

/-- The correlation, computed from the covariance and the variances. -/
def Arith.corrOf {R : Type} (A : Arith R) (c vx vy : R) : R :=
  if A.eqZero (A.sqrtClip (A.abs (A.mul vx vy))) then A.ofInt 0 else A.div c (A.sqrtClip (A.abs (A.mul vx vy)))

theorem corr_relG (h : IsIeee64 sqrt sum dot) {c : F64} {c' vx vy : ℚ} {Gx Gy Gc : ℤ} (hc : RelG Gc c c')
    (hx : OnGrid Gx vx) (hy : OnGrid Gy vy) (hv : |round64 (vx * vy)| < 2 ^ 1024) (hG : Gx + Gy ≤ 1074)
    (hGc : Gc ≤ 509) :
    Arith.corrOf I c (fin vx) (fin vy) = fin (Arith.corrOf B c' vx vy) ∨
      ¬ (Arith.corrOf I c (fin vx) (fin vy)).Finite := by
  have e1 : Arith.mul I (fin vx) (fin vy) = fin (round64 (vx * vy)) := by
    show F64.round (vx * vy) = _
    rw [round_eq (Or.inl ((hx.mul hy).mono hG)), if_neg (not_le.2 hv)]
  obtain ⟨e2, h2⟩ := sqrtClip_ieee h (abs_nonneg (round64 (vx * vy)))
  have e3 : Arith.corrOf B c' vx vy = if decide (Arith.sqrtClip B |round64 (vx * vy)| = round64 ((0 : ℤ) : ℚ)) then
      round64 ((0 : ℤ) : ℚ) else round64 (c' / Arith.sqrtClip B |round64 (vx * vy)|) := rfl
  have e4 : Arith.corrOf I c (fin vx) (fin vy)
      = if F64.eq (fin (Arith.sqrtClip B |round64 (vx * vy)|)) (F64.round ((0 : ℤ) : ℚ)) then F64.round ((0 : ℤ) : ℚ)
        else F64.div c (fin (Arith.sqrtClip B |round64 (vx * vy)|)) := by
    unfold Arith.corrOf Arith.eqZero
    rw [e1]
    rw [show Arith.abs I (fin (round64 (vx * vy))) = fin |round64 (vx * vy)| from rfl, e2]
    rfl
  rw [e3, e4, ofInt_zero, Int.cast_zero, round64_zero]
  obtain ⟨d, hd⟩ : ∃ d, d = Arith.sqrtClip B |round64 (vx * vy)| := ⟨_, rfl⟩
  rw [← hd] at h2 ⊢
  by_cases h0 : d = 0
  · left
    rw [h0]
    rfl
  · rw [if_neg (by simpa [F64.eq] using h0), if_neg (by simpa using h0)]
    have hd0 : 0 < d := lt_of_le_of_ne h2.nonneg (Ne.symm h0)
    have hd1 : d ≤ 2 ^ (513 : ℤ) := by
      refine h2.le_pow (K := 512) ?_
      rw [show (4 : ℚ) = 2 ^ (2 : ℤ) by norm_num, ← zpow_mul]
      exact hv.le
    rcases hc.eq with rfl | hc'
    · show (if d = 0 then _ else F64.round (c' / d)) = _ ∨ ¬ (if d = 0 then _ else F64.round (c' / d)).Finite
      rw [if_neg h0]
      have low : c' = 0 ∨ 2 ^ (-(Gc + 513)) ≤ |c' / d| := by
        by_cases hc0 : c' = 0
        · exact Or.inl hc0
        · right
          rw [abs_div, abs_of_pos hd0, le_div_iff₀ hd0]
          calc (2 : ℚ) ^ (-(Gc + 513)) * d ≤ 2 ^ (-(Gc + 513)) * 2 ^ (513 : ℤ) :=
                mul_le_mul_of_nonneg_left hd1 (by positivity)
            _ = 2 ^ (-Gc) := by
              rw [← zpow_add₀ (by norm_num), show -(Gc + 513) + 513 = -Gc by ring]
            _ ≤ _ := hc.grid.le_abs hc0
      rw [F64.round_eq]
      · split_ifs
        · exact Or.inr id
        · exact Or.inl rfl
      · rcases low with rfl | low
        · rw [zero_div]; exact Or.inl (OnGrid.zero _)
        · exact Or.inr ((zpow_le_zpow_right₀ (by norm_num) (by omega)).trans low)
    · exact Or.inr (RelG.div_not_finite hc' _)

end Dcor

/-
NaN and infinities in `float64`: what an operation returns if an operand is not finite.
-/
import Verif.Model.Float64
import Verif.Proofs.Exact
import Verif.Proofs.Safety

namespace Dcor

namespace F64

/-- Neither infinite nor NaN. -/
def Finite : F64 → Prop
  | fin _ => True
  | _ => False

theorem not_finite {a : F64} : ¬ a.Finite ↔ a = nan ∨ ∃ s, a = inf s := by
  cases a <;> simp [F64.Finite]

@[simp] theorem nan_add (b : F64) : add nan b = nan := by cases b <;> rfl
@[simp] theorem add_nan (a : F64) : add a nan = nan := by cases a <;> rfl
@[simp] theorem nan_mul (b : F64) : mul nan b = nan := by cases b <;> rfl
@[simp] theorem mul_nan (a : F64) : mul a nan = nan := by cases a <;> rfl
@[simp] theorem nan_div (b : F64) : div nan b = nan := by cases b <;> rfl
@[simp] theorem div_nan (a : F64) : div a nan = nan := by cases a <;> rfl
@[simp] theorem nan_sub (b : F64) : sub nan b = nan := nan_add _
@[simp] theorem sub_nan (a : F64) : sub a nan = nan := add_nan _
@[simp] theorem nan_lt (b : F64) : lt nan b = false := by cases b <;> rfl
@[simp] theorem nan_eq (b : F64) : eq nan b = false := by cases b <;> rfl

theorem nan_fma_left (b c : F64) : fma nan b c = nan := by
  cases b <;> cases c <;> rfl

theorem nan_fma_right (a c : F64) : fma a nan c = nan := by
  cases a <;> cases c <;> rfl

theorem nan_fma_add (a b : F64) : fma a b nan = nan := by
  cases a <;> cases b <;> first | rfl | exact add_nan _

theorem sub_self {a : F64} (h : ¬ a.Finite) : sub a a = nan := by
  rcases not_finite.1 h with rfl | ⟨s, rfl⟩
  · rfl
  · cases s <;> rfl

theorem inf_add (s : Bool) (b : F64) : add (inf s) b = inf s ∨ add (inf s) b = nan := by
  cases b with
  | nan => exact Or.inr rfl
  | inf t =>
    show (if s = t then inf s else nan) = _ ∨ (if s = t then inf s else nan) = _
    split_ifs
    · exact Or.inl rfl
    · exact Or.inr rfl
  | fin q => exact Or.inl rfl

theorem add_inf (a : F64) (s : Bool) : add a (inf s) = inf s ∨ add a (inf s) = nan := by
  cases a with
  | nan => exact Or.inr rfl
  | inf t =>
    show (if t = s then inf t else nan) = _ ∨ (if t = s then inf t else nan) = _
    split_ifs with h
    · exact Or.inl (by rw [h])
    · exact Or.inr rfl
  | fin q => exact Or.inl rfl

theorem two_mul_inf (s : Bool) : mul (round ((2 : ℤ) : ℚ)) (inf s) = inf s := by
  have : round ((2 : ℤ) : ℚ) = fin 2 := by decide +kernel
  rw [this]
  show (if (2 : ℚ) = 0 then nan else inf (decide ((2 : ℚ) < 0) != s)) = inf s
  rw [if_neg (by norm_num), decide_eq_false (by norm_num : ¬ (2 : ℚ) < 0)]
  cases s <;> rfl

theorem Sums.nan {l : List F64} {r : F64} (h : Sums l r) : F64.nan ∈ l → r = F64.nan := by
  induction h with
  | nil => intro h; simp at h
  | single a => intro h; simpa using (List.mem_singleton.1 h).symm
  | add _ _ _ _ ih ih' =>
    intro h
    rcases List.mem_append.1 h with h | h
    · rw [ih h, nan_add]
    · rw [ih' h, add_nan]
  | perm _ hp ih => intro h; exact ih (hp.mem_iff.2 h)

theorem Dots.nan {l : List (F64 × F64)} {r : F64} (h : Dots l r) :
    (∃ p ∈ l, p.1 = F64.nan ∨ p.2 = F64.nan) → r = F64.nan := by
  induction h with
  | nil => rintro ⟨p, hp, _⟩; simp at hp
  | single a b =>
    rintro ⟨p, hp, h⟩
    rw [List.mem_singleton.1 hp] at h
    rcases h with h | h
    · rw [show a = F64.nan from h, nan_mul]
    · rw [show b = F64.nan from h, mul_nan]
  | @fma a b l c _ _ ih =>
    rintro ⟨p, hp, h⟩
    rcases List.mem_cons.1 hp with rfl | hp
    · rcases h with h | h
      · rw [show a = F64.nan from h, nan_fma_left]
      · rw [show b = F64.nan from h, nan_fma_right]
    · rw [ih ⟨p, hp, h⟩, nan_fma_add]
  | add _ _ _ _ ih ih' =>
    rintro ⟨p, hp, h⟩
    rcases List.mem_append.1 hp with hp | hp
    · rw [ih ⟨p, hp, h⟩, nan_add]
    · rw [ih' ⟨p, hp, h⟩, add_nan]
  | perm _ hp ih =>
    rintro ⟨p, hp', h⟩
    exact ih ⟨p, hp.mem_iff.2 hp', h⟩

end F64

open F64

variable {sqrt : F64 → F64} {sum : List F64 → F64} {dot : List (F64 × F64) → F64} {n m p q : ℕ}

local notation "I" => ieee64 sqrt sum dot

theorem vsum_nan (h : IsIeee64 sqrt sum dot) {v : Fin n → F64} {i : Fin n} (hi : v i = nan) :
    Arith.vsum I v = nan :=
  (h.sum _).nan (List.mem_ofFn.2 ⟨i, hi⟩)

theorem vdot_nan_left (h : IsIeee64 sqrt sum dot) {v w : Fin n → F64} {i : Fin n} (hi : v i = nan) :
    Arith.vdot I v w = nan :=
  (h.dot _).nan ⟨(v i, w i), List.mem_ofFn.2 ⟨i, rfl⟩, Or.inl hi⟩

theorem vdot_nan_right (h : IsIeee64 sqrt sum dot) {v w : Fin n → F64} {i : Fin n} (hi : w i = nan) :
    Arith.vdot I v w = nan :=
  (h.dot _).nan ⟨(v i, w i), List.mem_ofFn.2 ⟨i, rfl⟩, Or.inr hi⟩

theorem sqrt_nan (h : IsIeee64 sqrt sum dot) : sqrt nan = nan := h.sqrt nan

theorem sqrtClip_nan (h : IsIeee64 sqrt sum dot) : Arith.sqrtClip I nan = nan := by
  unfold Arith.sqrtClip
  rw [show Arith.lt I nan (Arith.ofInt I 0) = false from nan_lt (F64.round ((0 : ℤ) : ℚ))]
  exact sqrt_nan h

theorem fromTerms_nan (bc : Bool) {mp aT bT : F64} {a b : Fin n → F64}
    (h : Arith.vdot I (fun i => Arith.idiv I (a i) n) b = nan) : Arith.fromTerms I bc mp a aT b bT = nan := by
  unfold Arith.fromTerms
  dsimp only
  rw [h]
  have e1 : ∀ k : ℤ, Arith.idiv I nan k = nan := fun k => nan_div (F64.round (k : ℚ))
  have e2 : ∀ k : ℤ, Arith.imul I k nan = nan := fun k => mul_nan (F64.round (k : ℚ))
  have e3 : ∀ a : F64, Arith.sub I a nan = nan := sub_nan
  have e4 : ∀ a : F64, Arith.add I nan a = nan := nan_add
  rw [e1, e2, e3, e4]

theorem fromTerms_nan_left (h : IsIeee64 sqrt sum dot) (bc : Bool) {mp aT bT : F64} {a b : Fin n → F64} {i : Fin n}
    (hi : a i = nan) : Arith.fromTerms I bc mp a aT b bT = nan :=
  fromTerms_nan bc (vdot_nan_left h (i := i) (by show F64.div (a i) _ = nan; rw [hi, nan_div]))

theorem fromTerms_nan_right (h : IsIeee64 sqrt sum dot) (bc : Bool) {mp aT bT : F64} {a b : Fin n → F64} {i : Fin n}
    (hi : b i = nan) : Arith.fromTerms I bc mp a aT b bT = nan :=
  fromTerms_nan bc (vdot_nan_right h hi)

theorem corr_nan (h : IsIeee64 sqrt sum dot) {c vx vy : F64} (hc : c = nan) (hv : vx = nan ∨ vy = nan) :
    (if Arith.eqZero I (Arith.sqrtClip I (Arith.abs I (Arith.mul I vx vy))) = true then Arith.ofInt I 0
      else Arith.div I c (Arith.sqrtClip I (Arith.abs I (Arith.mul I vx vy)))) = nan := by
  have e : Arith.abs I (Arith.mul I vx vy) = nan := by
    rcases hv with rfl | rfl
    · exact congrArg F64.abs (nan_mul vy)
    · exact congrArg F64.abs (mul_nan vx)
  have e' : Arith.eqZero I nan = false := nan_eq (F64.round ((0 : ℤ) : ℚ))
  have e'' : Arith.div I nan nan = nan := rfl
  rw [e, sqrtClip_nan h, e', hc, e'']
  rfl

/-- A row sum of `x` that is NaN. -/
theorem stats_nan_left (h : IsIeee64 sqrt sum dot) (bc : Bool) {t : Arith.AllTerms F64 n} {i : Fin n}
    (hi : t.core.aAxis i = nan) :
    (Arith.statsFromTerms I bc t).cov = nan ∧ (Arith.statsFromTerms I bc t).corr = nan ∧
      (Arith.statsFromTerms I bc t).varX = nan := by
  have h1 : (Arith.statsFromTerms I bc t).cov = nan := fromTerms_nan_left h bc hi
  have h2 : (Arith.statsFromTerms I bc t).varX = nan := fromTerms_nan_left h bc hi
  exact ⟨h1, corr_nan h h1 (Or.inl h2), h2⟩

/-- A row sum of `y` that is NaN. -/
theorem stats_nan_right (h : IsIeee64 sqrt sum dot) (bc : Bool) {t : Arith.AllTerms F64 n} {i : Fin n}
    (hi : t.core.bAxis i = nan) :
    (Arith.statsFromTerms I bc t).cov = nan ∧ (Arith.statsFromTerms I bc t).corr = nan ∧
      (Arith.statsFromTerms I bc t).varY = nan := by
  have h1 : (Arith.statsFromTerms I bc t).cov = nan := fromTerms_nan_right h bc hi
  have h2 : (Arith.statsFromTerms I bc t).varY = nan := fromTerms_nan_left h bc hi
  exact ⟨h1, corr_nan h h1 (Or.inr h2), h2⟩

/-- The distance of an observation that is not finite to itself. -/
theorem cdist_nan_diag (h : IsIeee64 sqrt sum dot) {x : Fin n → Fin p → F64} {i : Fin n} {k : Fin p}
    (hx : ¬ (x i k).Finite) : Arith.cdist I x x i i = nan := by
  show sqrt _ = nan
  rw [vsum_nan h (i := k) (by show F64.mul (F64.sub _ _) _ = nan; rw [F64.sub_self hx, nan_mul])]
  exact sqrt_nan h

theorem axisSum_nan (h : IsIeee64 sqrt sum dot) {x : Fin n → Fin p → F64} {i : Fin n} {k : Fin p}
    (hx : ¬ (x i k).Finite) : Arith.axisSum I (Arith.euclidean I x) i = nan :=
  vsum_nan h (i := i) (cdist_nan_diag h hx)

/-! ### Cumulative sums -/

/-- A cumulative sum up to an element that is not finite: NaN, or that element. -/
theorem cumsum_inf {v : Fin n → F64} {s : Bool} {k : ℕ} (hk : k < n) (hv : v ⟨k, hk⟩ = inf s) :
    Arith.cumsumAt I v k hk = inf s ∨ Arith.cumsumAt I v k hk = nan := by
  cases k with
  | zero => exact Or.inl hv
  | succ k =>
    show F64.add _ (v ⟨k + 1, hk⟩) = _ ∨ F64.add _ (v ⟨k + 1, hk⟩) = _
    rw [hv]
    exact add_inf _ _

theorem cumsum_nan {v : Fin n → F64} {k : ℕ} (hk : k < n) (hv : v ⟨k, hk⟩ = nan) :
    Arith.cumsumAt I v k hk = nan := by
  cases k with
  | zero => exact hv
  | succ k =>
    show F64.add _ (v ⟨k + 1, hk⟩) = nan
    rw [hv, add_nan]

/-- The cumulative sum excluding an element that is not finite is NaN. -/
theorem cumsum_sub_nan {v : Fin n → F64} {i : Fin n} (hv : ¬ (v i).Finite) :
    F64.sub (Arith.cumsum I v i) (v i) = nan := by
  rcases not_finite.1 hv with e | ⟨s, e⟩
  · rw [e, sub_nan]
  · rw [e]
    rcases cumsum_inf (sqrt := sqrt) (sum := sum) (dot := dot) i.2 e with h | h
    · show F64.sub (Arith.cumsumAt I v i i.2) _ = nan
      rw [h]
      exact F64.sub_self (by simp [F64.Finite])
    · show F64.sub (Arith.cumsumAt I v i i.2) _ = nan
      rw [h, nan_sub]

/-- Later cumulative sums keep an infinity or turn into NaN. -/
theorem cumsum_later {v : Fin n → F64} {s : Bool} {k j : ℕ} (hk : k < n) (hj : j < n) (hkj : k ≤ j)
    (h : Arith.cumsumAt I v k hk = inf s ∨ Arith.cumsumAt I v k hk = nan) :
    Arith.cumsumAt I v j hj = inf s ∨ Arith.cumsumAt I v j hj = nan := by
  induction j with
  | zero =>
    have : k = 0 := by omega
    subst this
    exact h
  | succ j ih =>
    by_cases e : k = j + 1
    · subst e; exact h
    · show F64.add _ _ = _ ∨ F64.add _ _ = _
      rcases ih (by omega) (by omega) with h' | h'
      · rw [show Arith.cumsumAt I v j _ = inf s from h']; exact inf_add _ _
      · rw [show Arith.cumsumAt I v j _ = nan from h']; exact Or.inr (nan_add _)

theorem axisShape_nan (σ : Equiv.Perm (Fin n)) {x : Fin n → F64} {i : Fin n} (hx : ¬ (x i).Finite) :
    Arith.axisShape I σ x i = nan := by
  unfold Arith.axisShape
  have : Arith.sub I (Arith.cumsum I (fun k => x (σ k)) (σ.symm i)) (x (σ (σ.symm i))) = nan :=
    cumsum_sub_nan (v := fun k => x (σ k)) (i := σ.symm i) (by simpa using hx)
  rw [this]
  show F64.sub _ (F64.mul _ nan) = nan
  simp

theorem rowSums_nan {x r : Fin n → F64} {i : Fin n} (hx : ¬ (x i).Finite) (e : Arith.computeRowSums I x = .ok r) :
    r i = nan := by
  unfold Arith.computeRowSums at e
  have hn : 0 < n := i.pos
  rw [dif_pos hn] at e
  cases e
  show F64.add (F64.mul _ (x i)) (F64.sub (Arith.cumsumAt I x (n - 1) _)
    (F64.mul (F64.round ((2 : ℤ) : ℚ)) (Arith.cumsumAt I x i i.2))) = nan
  rcases not_finite.1 hx with ex | ⟨s, ex⟩
  · rw [ex, mul_nan, nan_add]
  · have h1 := cumsum_inf (sqrt := sqrt) (sum := sum) (dot := dot) i.2 ex
    have h2 := cumsum_later i.2 (by omega : n - 1 < n) (by omega) h1
    rcases h1 with h1 | h1
    · rw [h1, two_mul_inf]
      rcases h2 with h2 | h2
      · rw [show Arith.cumsumAt I x (n - 1) _ = inf s from h2, F64.sub_self (by simp [F64.Finite]), add_nan]
      · rw [show Arith.cumsumAt I x (n - 1) _ = nan from h2, nan_sub, add_nan]
    · rw [h1, mul_nan, sub_nan, add_nan]

/-- The terms of the mergesort method: its row sums are those of the sorted samples. -/
theorem mergesortTerms_rows (A : Arith F64) (ge : F64 → F64 → Bool) (argsort : (Fin n → F64) → Equiv.Perm (Fin n))
    (x y : Fin n → F64) (hn : 0 < n) :
    ∃ t a b, A.mergesortTerms ge argsort x y = .ok t ∧ A.computeRowSums (fun i => x (argsort x i)) = .ok a ∧
      A.computeRowSums (fun i => y (argsort x ((argsort fun i => y (argsort x i)) i))) = .ok b ∧ t.aAxis = a ∧
      ∀ i, t.bAxis ((argsort fun i => y (argsort x i)) i) = b i := by
  obtain ⟨r, e, _⟩ := computeWeightSums_safe A ge (fun i => y (argsort x i)) (fun i =>
    (![A.ofInt 1, y (argsort x i), x (argsort x i), A.mul (x (argsort x i)) (y (argsort x i))] : Fin 4 → F64))
  have hrow : ∀ v : Fin n → F64, ∃ a, A.computeRowSums v = .ok a := by
    intro v
    unfold Arith.computeRowSums
    rw [dif_pos hn]
    exact ⟨_, rfl⟩
  obtain ⟨a, ea⟩ := hrow fun i => x (argsort x i)
  obtain ⟨b, eb⟩ := hrow fun i => y (argsort x ((argsort fun i => y (argsort x i)) i))
  have key : ∃ t, A.mergesortTerms ge argsort x y = .ok t ∧ t.aAxis = a ∧
      t.bAxis = scatter (fun _ => A.ofInt 0) (argsort fun i => y (argsort x i)) b := by
    unfold Arith.mergesortTerms Arith.computeAijbijTerm
    simp only [e, ea, eb, Except.ok_bind', Except.pure_eq]
    exact ⟨_, rfl, rfl, rfl⟩
  obtain ⟨t, et, h1, h2⟩ := key
  refine ⟨t, a, b, et, ea, eb, h1, fun i => ?_⟩
  rw [h2, scatter_perm]
  simp

/-! ### Energy distance -/

namespace F64

/-- NaN, positive infinity or a nonnegative number. -/
def NN : F64 → Prop
  | nan => True
  | inf s => s = false
  | fin q => 0 ≤ q

/-- NaN or positive infinity. -/
def Top (a : F64) : Prop := a = nan ∨ a = inf false

theorem Top.nn {a : F64} (h : Top a) : NN a := by
  rcases h with rfl | rfl
  · trivial
  · rfl

theorem NN.top {a : F64} (h : NN a) (hf : ¬ a.Finite) : Top a := by
  cases a with
  | nan => exact Or.inl rfl
  | inf s => exact Or.inr (by rw [show s = false from h])
  | fin q => exact absurd trivial hf

theorem roundTiny_nonneg {q : ℚ} (hq : 0 ≤ q) : 0 ≤ roundTiny q := by
  unfold roundTiny
  rw [if_neg (not_lt.2 hq), Rat.mkRat_eq_div]
  positivity

theorem round_nn {q : ℚ} (hq : 0 ≤ q) : NN (round q) := by
  unfold round
  dsimp only
  have : 0 ≤ if |q| < 1 / 2 ^ 1022 then roundTiny q else round64 q := by
    split_ifs
    · exact roundTiny_nonneg hq
    · exact round64_nonneg hq
  generalize (if |q| < 1 / 2 ^ 1022 then roundTiny q else round64 q) = r at this ⊢
  split_ifs
  · exact decide_eq_false (not_lt.2 this)
  · exact this

theorem NN.add {a b : F64} (ha : NN a) (hb : NN b) : NN (add a b) := by
  cases a with
  | nan => rw [nan_add]; trivial
  | inf s =>
    obtain rfl : s = false := ha
    cases b with
    | nan => trivial
    | inf t => obtain rfl : t = false := hb; rfl
    | fin q => rfl
  | fin q =>
    cases b with
    | nan => trivial
    | inf t => obtain rfl : t = false := hb; rfl
    | fin r => exact round_nn (add_nonneg ha hb)

theorem Top.add {a b : F64} (ha : Top a) (hb : NN b) : Top (add a b) := by
  rcases ha with rfl | rfl
  · exact Or.inl (nan_add _)
  · cases b with
    | nan => exact Or.inl rfl
    | inf t => obtain rfl : t = false := hb; exact Or.inr rfl
    | fin q => exact Or.inr rfl

theorem Top.add' {a b : F64} (ha : NN a) (hb : Top b) : Top (F64.add a b) := by
  rcases hb with rfl | rfl
  · exact Or.inl (add_nan _)
  · cases a with
    | nan => exact Or.inl rfl
    | inf t => obtain rfl : t = false := ha; exact Or.inr rfl
    | fin q => exact Or.inr rfl

theorem Sums.nn {l : List F64} {r : F64} (h : Sums l r) : (∀ a ∈ l, NN a) → NN r := by
  induction h with
  | nil => intro _; exact le_refl (0 : ℚ)
  | single a => intro h; exact h a (by simp)
  | add _ _ _ _ ih ih' =>
    intro h
    exact (ih fun a ha => h a (by simp [ha])).add (ih' fun a ha => h a (by simp [ha]))
  | perm _ hp ih => intro h; exact ih fun a ha => h a (hp.mem_iff.1 ha)

theorem Sums.top {l : List F64} {r : F64} (h : Sums l r) : (∀ a ∈ l, NN a) → (∃ a ∈ l, Top a) → Top r := by
  induction h with
  | nil => rintro _ ⟨a, ha, _⟩; simp at ha
  | single a => rintro _ ⟨b, hb, ht⟩; rwa [List.mem_singleton.1 hb] at ht
  | add _ _ hs hs' ih ih' =>
    rintro h ⟨b, hb, ht⟩
    have h1 := fun a ha => h a (List.mem_append_left _ ha)
    have h2 := fun a ha => h a (List.mem_append_right _ ha)
    rcases List.mem_append.1 hb with hb | hb
    · exact (ih h1 ⟨b, hb, ht⟩).add (hs'.nn h2)
    · exact Top.add' (hs.nn h1) (ih' h2 ⟨b, hb, ht⟩)
  | perm _ hp ih =>
    rintro h ⟨b, hb, ht⟩
    exact ih (fun a ha => h a (hp.mem_iff.1 ha)) ⟨b, hp.mem_iff.2 hb, ht⟩

theorem mul_self_nn (a : F64) : NN (mul a a) := by
  cases a with
  | nan => trivial
  | inf s => cases s <;> rfl
  | fin q => exact round_nn (mul_self_nonneg q)

theorem IsSqrt.nn {a r : F64} (h : IsSqrt a r) : NN r := by
  cases a with
  | nan => rw [show r = nan from h]; trivial
  | inf s => cases s <;> (rw [show r = _ from h]; first | rfl | trivial)
  | fin q =>
    change if q < 0 then r = nan else ∃ s, SqrtTo q s ∧ r = fin s at h
    split_ifs at h
    · rw [h]; trivial
    · obtain ⟨s, hs, rfl⟩ := h
      exact hs.nonneg

theorem IsSqrt.top {a r : F64} (h : IsSqrt a r) (ha : Top a) : Top r := by
  rcases ha with rfl | rfl
  · exact Or.inl h
  · exact Or.inr h

/-- The difference of an infinity or NaN and a number is not finite. -/
theorem sub_left_not_finite {a : F64} (ha : ¬ a.Finite) (b : F64) : ¬ (sub a b).Finite := by
  rcases not_finite.1 ha with rfl | ⟨s, rfl⟩
  · rw [nan_sub]; exact id
  · rcases inf_add s (neg b) with h | h <;> (show ¬ (F64.add _ _).Finite; rw [h]; exact id)

theorem sub_right_not_finite {b : F64} (hb : ¬ b.Finite) (a : F64) : ¬ (sub a b).Finite := by
  rcases not_finite.1 hb with rfl | ⟨s, rfl⟩
  · rw [sub_nan]; exact id
  · rcases add_inf a (!s) with h | h <;> (show ¬ (F64.add _ _).Finite; rw [show neg (inf s) = inf (!s) from rfl, h]; exact id)

theorem mul_self_top {a : F64} (ha : ¬ a.Finite) : Top (mul a a) := by
  rcases not_finite.1 ha with rfl | ⟨s, rfl⟩
  · exact Or.inl rfl
  · exact Or.inr (by cases s <;> rfl)

theorem Top.mul {a : F64} (ha : Top a) {k : F64} (hk : NN k) : Top (F64.mul k a) := by
  rcases ha with rfl | rfl
  · exact Or.inl (mul_nan _)
  · cases k with
    | nan => exact Or.inl rfl
    | inf s => obtain rfl : s = false := hk; exact Or.inr rfl
    | fin q =>
      show Top (if q = 0 then nan else inf (decide (q < 0) != false))
      split_ifs
      · exact Or.inl rfl
      · rw [decide_eq_false (not_lt.2 hk)]; exact Or.inr rfl

theorem Top.div {a : F64} (ha : Top a) {k : F64} (hk : NN k) : Top (F64.div a k) := by
  rcases ha with rfl | rfl
  · exact Or.inl (nan_div _)
  · cases k with
    | nan => exact Or.inl rfl
    | inf s => exact Or.inl rfl
    | fin q =>
      show Top (inf (false != decide (q < 0)))
      rw [decide_eq_false (not_lt.2 hk)]; exact Or.inr rfl

theorem Top.sub {a b : F64} (ha : Top a) (hb : Top b) : F64.sub a b = nan := by
  rcases ha with rfl | rfl <;> rcases hb with rfl | rfl <;> rfl

theorem Top.sub_cases {a : F64} (ha : Top a) (b : F64) : Top (F64.sub a b) := by
  rcases ha with rfl | rfl
  · exact Or.inl (nan_sub _)
  · exact (inf_add false (neg b)).symm

end F64

theorem cdist_nn (h : IsIeee64 sqrt sum dot) (x : Fin n → Fin p → F64) (y : Fin m → Fin p → F64) (i : Fin n) (j : Fin m) :
    NN (Arith.cdist I x y i j) :=
  (h.sqrt _).nn

theorem cdist_top (h : IsIeee64 sqrt sum dot) (x : Fin n → Fin p → F64) (y : Fin m → Fin p → F64) {i : Fin n} {j : Fin m}
    {k : Fin p} (hx : ¬ (F64.sub (x i k) (y j k)).Finite) : Top (Arith.cdist I x y i j) := by
  refine (h.sqrt _).top ((h.sum _).top ?_ ⟨_, List.mem_ofFn.2 ⟨k, rfl⟩, mul_self_top hx⟩)
  intro a ha
  obtain ⟨t, rfl⟩ := List.mem_ofFn.1 ha
  exact mul_self_nn _

theorem mean_top (h : IsIeee64 sqrt sum dot) {l : List F64} (hl : ∀ a ∈ l, NN a) (ht : ∃ a ∈ l, Top a) :
    Top (Arith.mean I l) :=
  ((h.sum l).top hl ht).div (round_nn (by positivity))

theorem mem_flatAll {R : Type} (d : Fin n → Fin m → R) (a : R) : a ∈ Arith.flatAll d ↔ ∃ i j, d i j = a := by
  simp [Arith.flatAll]

theorem mem_flatUpper {R : Type} (d : Fin n → Fin n → R) (a : R) :
    a ∈ Arith.flatUpper d ↔ ∃ i j : Fin n, i < j ∧ d i j = a := by
  simp [Arith.flatUpper]

/-- The average distance within a sample with an observation that is not finite. -/
theorem within_top (h : IsIeee64 sqrt sum dot) (s : EstStat) {x : Fin n → Fin p → F64} {i : Fin n} {k : Fin p}
    (hx : ¬ (x i k).Finite) :
    Top (Arith.mean I (match s with
      | .u => Arith.flatUpper (Arith.cdist I x x)
      | .v => Arith.flatAll (Arith.cdist I x x))) := by
  cases s with
  | v =>
    refine mean_top h ?_ ⟨nan, (mem_flatAll _ _).2 ⟨i, i, cdist_nan_diag h hx⟩, Or.inl rfl⟩
    intro a ha
    obtain ⟨i, j, rfl⟩ := (mem_flatAll _ _).1 ha
    exact cdist_nn h _ _ _ _
  | u =>
    have hnn : ∀ a ∈ Arith.flatUpper (Arith.cdist I x x), NN a := by
      intro a ha
      obtain ⟨i, j, _, rfl⟩ := (mem_flatUpper _ _).1 ha
      exact cdist_nn h _ _ _ _
    by_cases hn : ∃ j : Fin n, j ≠ i
    · obtain ⟨j, hj⟩ := hn
      rcases lt_or_gt_of_ne hj with hlt | hlt
      · exact mean_top h hnn ⟨_, (mem_flatUpper _ _).2 ⟨j, i, hlt, rfl⟩, cdist_top h _ _ (sub_right_not_finite hx _)⟩
      · exact mean_top h hnn ⟨_, (mem_flatUpper _ _).2 ⟨i, j, hlt, rfl⟩, cdist_top h _ _ (sub_left_not_finite hx _)⟩
    · push Not at hn
      have : Arith.flatUpper (Arith.cdist I x x) = [] := by
        rw [List.eq_nil_iff_forall_not_mem]
        intro a ha
        obtain ⟨a, b, hab, _⟩ := (mem_flatUpper _ _).1 ha
        rw [hn a, hn b] at hab
        exact lt_irrefl _ hab
      rw [show (match EstStat.u with
        | .u => Arith.flatUpper (Arith.cdist I x x)
        | .v => Arith.flatAll (Arith.cdist I x x)) = [] from this]
      left
      have e : sum [] = fin 0 := by
        have : ∀ l r, F64.Sums l r → l = [] → r = fin 0 := by
          intro l r h
          induction h with
          | nil => intro _; rfl
          | single a => intro h; simp at h
          | add hl _ _ _ _ _ => intro h; exact absurd (List.append_eq_nil_iff.1 h).1 hl
          | perm _ hp ih => intro h; subst h; exact ih hp.eq_nil
        exact this _ _ (h.sum []) rfl
      show F64.div (sum []) (F64.round ((0 : ℤ) : ℚ)) = nan
      rw [e]
      decide +kernel

/-- The average distance between two samples, one of which has an observation that is not finite. -/
theorem between_top (h : IsIeee64 sqrt sum dot) {x : Fin n → Fin p → F64} {y : Fin m → Fin p → F64} {k : Fin p}
    (hm : 0 < m) (hn : 0 < n) (hx : (∃ i, ¬ (x i k).Finite) ∨ ∃ i, ¬ (y i k).Finite) :
    Top (Arith.mean I (Arith.flatAll (Arith.cdist I x y))) := by
  have hnn : ∀ a ∈ Arith.flatAll (Arith.cdist I x y), NN a := by
    intro a ha
    obtain ⟨i, j, rfl⟩ := (mem_flatAll _ _).1 ha
    exact cdist_nn h _ _ _ _
  rcases hx with ⟨i, hi⟩ | ⟨j, hj⟩
  · exact mean_top h hnn ⟨_, (mem_flatAll _ _).2 ⟨i, ⟨0, hm⟩, rfl⟩, cdist_top h _ _ (sub_left_not_finite hi _)⟩
  · exact mean_top h hnn ⟨_, (mem_flatAll _ _).2 ⟨⟨0, hn⟩, j, rfl⟩, cdist_top h _ _ (sub_right_not_finite hj _)⟩

/-! ### Left to right -/

theorem sumSeq_sums (l : List F64) : F64.Sums l (F64.sumSeq l) := by
  cases l with
  | nil => exact .nil
  | cons a l =>
    have : ∀ (l l' : List F64) (a : F64), l' ≠ [] → F64.Sums l' a → F64.Sums (l' ++ l) (l.foldl F64.add a) := by
      intro l
      induction l with
      | nil => intro l' a _ h; simpa using h
      | cons b l ih =>
        intro l' a hl h
        have := ih (l' ++ [b]) (F64.add a b) (by simp) (.add hl (by simp) h (.single b))
        simpa using this
    exact this l [a] a (by simp) (.single a)

theorem dotSeq_dots (l : List (F64 × F64)) : F64.Dots l (F64.dotSeq l) := by
  cases l with
  | nil => exact .nil
  | cons a l =>
    have : ∀ (l l' : List (F64 × F64)) (a : F64), l' ≠ [] → F64.Dots l' a →
        F64.Dots (l' ++ l) ((l.map fun p => F64.mul p.1 p.2).foldl F64.add a) := by
      intro l
      induction l with
      | nil => intro l' a _ h; simpa using h
      | cons b l ih =>
        intro l' a hl h
        have := ih (l' ++ [b]) (F64.add a (F64.mul b.1 b.2)) (by simp) (.add hl (by simp) h (.single b.1 b.2))
        simpa using this
    exact this l [a] _ (by simp) (.single a.1 a.2)

/-- The assumptions on square roots, sums and products can be met. -/
theorem ieee64_seq : IsIeee64 F64.sqrtSeq F64.sumSeq F64.dotSeq where
  sqrt a := by
    cases a with
    | nan => rfl
    | inf s => rfl
    | fin q =>
      show if q < 0 then F64.sqrtSeq (fin q) = nan else ∃ s, SqrtTo q s ∧ F64.sqrtSeq (fin q) = fin s
      split_ifs with h
      · exact if_pos h
      · exact ⟨sqrt64 q, sqrt64_spec q (not_lt.1 h), if_neg h⟩
  sum := sumSeq_sums
  dot := dotSeq_dots

end Dcor

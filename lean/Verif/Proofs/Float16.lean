/-
`float16`: what is not finite stays so, and small integers are exact.
-/
import Verif.Proofs.Round16
import Verif.Proofs.IntSingle
import Verif.Proofs.NonFinite

namespace Dcor

namespace F16

open F64

theorem round_large {q : ℚ} (h : 65520 ≤ |q|) : ¬ (round q).Finite := by
  have h1 : ¬ |q| < 1 / 2 ^ 14 := by
    norm_num
    linarith
  have h2 : 2 ^ 16 ≤ |round11 q| := by
    rcases le_total 0 q with hq | hq
    · rw [abs_of_nonneg hq] at h
      exact (round11_large h).trans (le_abs_self _)
    · rw [abs_of_nonpos hq] at h
      have := round11_large h
      rw [round11_neg] at this
      exact this.trans (neg_le_abs _)
  unfold round
  simp only [if_neg h1, if_pos h2]
  exact id

theorem round_int (z : ℤ) (hz : |z| ≤ 2 ^ 11) : round (z : ℚ) = fin z := by
  unfold round
  rcases eq_or_ne z 0 with rfl | h0
  · decide +kernel
  · have h1 : (1 : ℚ) ≤ |(z : ℚ)| := by exact_mod_cast Int.one_le_abs h0
    have h2 : |(z : ℚ)| ≤ 2 ^ 11 := by exact_mod_cast hz
    have h3 : ¬ |(z : ℚ)| < 1 / 2 ^ 14 := by
      norm_num
      linarith
    have h4 : ¬ 2 ^ 16 ≤ |(z : ℚ)| := by
      norm_num at h2 ⊢
      linarith
    simp only [if_neg h3, round11_int z hz, if_neg h4]

theorem cast_not_finite {a : F64} (h : ¬ a.Finite) : ¬ (cast a).Finite := by
  cases a with
  | fin q => exact absurd trivial h
  | _ => exact h

theorem add_left {a : F64} (h : ¬ a.Finite) (b : F64) : ¬ (add a b).Finite := by
  cases a with
  | fin q => exact absurd trivial h
  | nan => exact id
  | inf s => cases b with
    | inf t => cases s <;> cases t <;> exact id
    | _ => exact id

theorem add_right {b : F64} (h : ¬ b.Finite) (a : F64) : ¬ (add a b).Finite := by
  cases b with
  | fin q => exact absurd trivial h
  | nan => cases a <;> exact id
  | inf s => cases a with
    | inf t => cases s <;> cases t <;> exact id
    | _ => exact id

theorem add32_left {a : F64} (h : ¬ a.Finite) (b : F64) : ¬ (add32 a b).Finite := by
  cases a with
  | fin q => exact absurd trivial h
  | nan => exact id
  | inf s => cases b with
    | inf t => cases s <;> cases t <;> exact id
    | _ => exact id

theorem add32_right {b : F64} (h : ¬ b.Finite) (a : F64) : ¬ (add32 a b).Finite := by
  cases b with
  | fin q => exact absurd trivial h
  | nan => cases a <;> exact id
  | inf s => cases a with
    | inf t => cases s <;> cases t <;> exact id
    | _ => exact id

theorem mul_left {a : F64} (h : ¬ a.Finite) (b : F64) : ¬ (mul a b).Finite := by
  cases a with
  | fin q => exact absurd trivial h
  | nan => exact id
  | inf s => cases b with
    | fin q =>
      show ¬ (if q = 0 then nan else inf (s != decide (q < 0))).Finite
      split_ifs <;> exact id
    | _ => exact id

theorem div_left {a : F64} (h : ¬ a.Finite) (b : F64) : ¬ (div a b).Finite := by
  cases a with
  | fin q => exact absurd trivial h
  | nan => exact id
  | inf s => cases b <;> exact id

theorem sub_left {a : F64} (h : ¬ a.Finite) (b : F64) : ¬ (sub a b).Finite := add_left h _

/-- A sum with an element that is not finite is not finite. -/
theorem Acc.not_finite {l : List F64} {r : F64} (h : Acc l r) : (∃ a ∈ l, ¬ a.Finite) → ¬ r.Finite := by
  induction h with
  | nil => simp
  | single a => simp
  | @add l l' a b _ _ _ _ ih1 ih2 =>
    rintro ⟨c, hc, hf⟩
    rcases List.mem_append.1 hc with hc | hc
    · exact add32_left (ih1 ⟨c, hc, hf⟩) _
    · exact add32_right (ih2 ⟨c, hc, hf⟩) _
  | cast _ ih => exact fun h => cast_not_finite (ih h)
  | perm _ hp ih =>
    rintro ⟨c, hc, hf⟩
    exact ih ⟨c, hp.mem_iff.2 hc, hf⟩

theorem IsSum.not_finite {sum : List F64 → F64} (h : IsSum sum) {l : List F64} (hl : ∃ a ∈ l, ¬ a.Finite) :
    ¬ (sum l).Finite := by
  obtain ⟨r, hr, e⟩ := h l
  rw [e]
  exact cast_not_finite (hr.not_finite hl)

theorem cast_int {z : ℤ} (hz : |z| ≤ 2 ^ 11) : cast (fin z) = fin z := round_int z hz

/-- A sum of small integers is exact in any order. -/
theorem Acc.exact {l : List F64} {r : F64} (h : Acc l r) :
    ∀ k : List ℤ, l = k.map (fun z : ℤ => fin z) → (k.map fun a => |a|).sum ≤ 2 ^ 11 → r = fin (k.sum : ℤ) := by
  induction h with
  | nil =>
    intro k e _
    have : k = [] := by simpa using e.symm
    simp [this]
  | single a =>
    intro k e _
    obtain ⟨z, rfl⟩ : ∃ z, k = [z] := by
      rw [← List.length_eq_one_iff]
      simpa using (congrArg List.length e).symm
    simpa using e
  | @add l l' a b _ _ _ _ ih1 ih2 =>
    intro k e hs
    obtain ⟨k1, k2, rfl, e1, e2⟩ := List.map_eq_append_iff.1 e.symm
    have e3 := (int_abs_sum_le (k1 ++ k2)).trans hs
    rw [List.map_append, List.sum_append] at hs
    have n1 : 0 ≤ (k1.map fun a => |a|).sum := List.sum_nonneg (by simp)
    have n2 : 0 ≤ (k2.map fun a => |a|).sum := List.sum_nonneg (by simp)
    rw [ih1 k1 e1.symm (by omega), ih2 k2 e2.symm (by omega), List.sum_append]
    rw [List.sum_append] at e3
    show fin (round32 _) = _
    rw [← Int.cast_add, round32_int _ (e3.trans (by norm_num))]
  | cast _ ih =>
    intro k e hs
    rw [ih k e hs]
    exact cast_int ((int_abs_sum_le k).trans hs)
  | @perm l l' a _ hp ih =>
    intro k e hs
    rw [e] at hp
    obtain ⟨k', rfl, hk⟩ : Relation.Comp (· = List.map (fun z : ℤ => fin z) ·) (List.Perm · ·) l k := by
      rw [List.eq_map_comp_perm]
      exact hp
    rw [ih k' rfl (by rwa [(hk.map _).sum_eq]), hk.sum_eq]

theorem sumSeq_isSum : IsSum sumSeq := by
  intro l
  cases l with
  | nil => exact ⟨fin 0, .nil, by decide +kernel⟩
  | cons a l =>
    refine ⟨l.foldl add32 a, ?_, rfl⟩
    have key : ∀ (l k : List F64) (b : F64), k ≠ [] → Acc k b → Acc (k ++ l) (l.foldl add32 b) := by
      intro l
      induction l with
      | nil => intro k b _ h; simpa using h
      | cons c l ih =>
        intro k b hk h
        have := ih (k ++ [c]) (add32 b c) (by simp) (.add hk (by simp) h (.single c))
        simpa using this
    simpa using key l [a] a (by simp) (.single a)

end F16

open F64

/-- `ieee16` with a scalar product and a square root that are exact on small integers. The AVL method uses neither. -/
def ieee16x (sum : List F64 → F64) : Arith F64 :=
  { ieee16 sum with
    dot := fun l => sum (l.map fun p => F16.mul p.1 p.2)
    sqrt := fun a => match a with
      | fin q => F16.round (Int.sqrt q.num)
      | a => a }

variable {sum16 : List F64 → F64} {n : ℕ}

theorem ieee16_rel : (ieee16 sum16).Rel (ieee16x sum16) (fun a b => a = b) := by
  refine ⟨fun _ => rfl, ?_, ?_, ?_, ?_⟩
  · rintro a b _ _ rfl rfl; rfl
  · rintro a b _ _ rfl rfl; rfl
  · rintro a b _ _ rfl rfl; rfl
  · intro l l' hl
    rw [List.forall₂_eq_eq_eq] at hl
    subst hl
    rfl

theorem ieee16_sum_exact (h : F16.IsSum sum16) (l : List ℤ) (hl : (l.map fun a => |a|).sum ≤ 2 ^ 11) :
    sum16 (l.map fun z : ℤ => F16.round z) = F16.round ((l.sum : ℤ) : ℚ) := by
  have hmem : ∀ z ∈ l, |z| ≤ 2 ^ 11 := fun z hz =>
    (List.single_le_sum (l := l.map fun a => |a|) (by
      intro x hx
      obtain ⟨a, _, rfl⟩ := List.mem_map.1 hx
      exact abs_nonneg a) _ (List.mem_map_of_mem hz)).trans hl
  have e : (l.map fun z : ℤ => F16.round z) = l.map fun z : ℤ => fin z :=
    List.map_congr_left fun z hz => F16.round_int z (hmem z hz)
  obtain ⟨r, hr, e1⟩ := h (l.map fun z : ℤ => fin z)
  rw [e, e1, hr.exact l rfl hl]
  rfl

theorem ieee16_intExact (h : F16.IsSum sum16) : (ieee16x sum16).IntExact (2 ^ 11) where
  add a b ha hb hab := by
    show F16.add (F16.round a) (F16.round b) = F16.round ((a + b : ℤ) : ℚ)
    rw [F16.round_int a ha, F16.round_int b hb]
    push_cast
    rfl
  sub a b ha hb hab := by
    show F16.sub (F16.round a) (F16.round b) = F16.round ((a - b : ℤ) : ℚ)
    rw [F16.round_int a ha, F16.round_int b hb]
    show F16.round ((a : ℚ) + -(b : ℚ)) = _
    rw [← sub_eq_add_neg]
    push_cast
    rfl
  mul a b ha hb hab := by
    show F16.mul (F16.round a) (F16.round b) = F16.round ((a * b : ℤ) : ℚ)
    rw [F16.round_int a ha, F16.round_int b hb]
    push_cast
    rfl
  sum l hl := ieee16_sum_exact h l hl
  dot l hp hl := by
    show sum16 ((l.map fun p : ℤ × ℤ => (F16.round (p.1 : ℚ), F16.round (p.2 : ℚ))).map fun p => F16.mul p.1 p.2)
      = F16.round (((l.map fun p => p.1 * p.2).sum : ℤ) : ℚ)
    rw [← ieee16_sum_exact h _ (by rwa [List.map_map]), List.map_map, List.map_map]
    congr 1
    apply List.map_congr_left
    intro p hp'
    show F16.mul (F16.round (p.1 : ℚ)) (F16.round (p.2 : ℚ)) = F16.round ((p.1 * p.2 : ℤ) : ℚ)
    rw [F16.round_int _ (hp p hp').1, F16.round_int _ (hp p hp').2]
    push_cast
    rfl
  sqrt a ha := by
    show (match F16.round ((a * a : ℤ) : ℚ) with
      | fin q => F16.round (Int.sqrt q.num)
      | a => a) = F16.round ((|a| : ℤ) : ℚ)
    rw [F16.round_int (a * a) (by rw [abs_of_nonneg (mul_self_nonneg a)]; exact ha)]
    dsimp only
    rw [Rat.num_intCast, Int.sqrt_eq, Int.natCast_natAbs]

variable {sqrt : F64 → F64} {sum : List F64 → F64} {dot : List (F64 × F64) → F64}

theorem F64.add_left_not_finite {a : F64} (ha : ¬ a.Finite) (b : F64) : ¬ (F64.add a b).Finite := by
  rcases F64.not_finite.1 ha with rfl | ⟨s, rfl⟩
  · exact id
  · rcases F64.inf_add s b with e | e <;> rw [e] <;> exact id

/-- If the mean of the products is not finite, nor is the result. -/
theorem fromTermsHalf_not_finite (bc : Bool) {mp aT bT : F64} {a b : Fin n → F64} (h : ¬ mp.Finite) :
    ¬ (Arith.fromTermsSingle (ieee16 sum16) (ieee64 sqrt sum dot) bc mp a aT b bT).Finite :=
  F64.add_left_not_finite (F64.sub_left_not_finite (F16.div_left (F16.div_left h _) _) _) _

/-- For more than 180 observations the factor of the variance is infinite. -/
theorem varTermHalf_not_finite (hn : 181 ≤ n) (D : Arith F64) (x : Fin n → F64) :
    ¬ (Arith.varTermHalf (ieee16 sum16) D x).Finite := by
  apply F16.mul_left
  apply F16.round_large
  have h1 : (181 : ℚ) ≤ n := by exact_mod_cast hn
  push_cast
  rw [abs_of_nonneg (by positivity)]
  nlinarith

/-- The correlation of samples whose variances are not finite. -/
theorem corr_of_not_finite (h : IsIeee64 sqrt sum dot) {c vx vy : F64} (hx : ¬ vx.Finite) (hy : ¬ vy.Finite) :
    (if (ieee64 sqrt sum dot).eqZero ((ieee64 sqrt sum dot).sqrtClip (F64.abs (F64.mul vx vy))) then (ieee64 sqrt sum dot).ofInt 0
      else F64.div c ((ieee64 sqrt sum dot).sqrtClip (F64.abs (F64.mul vx vy)))) = nan ∨
    (if (ieee64 sqrt sum dot).eqZero ((ieee64 sqrt sum dot).sqrtClip (F64.abs (F64.mul vx vy))) then (ieee64 sqrt sum dot).ofInt 0
      else F64.div c ((ieee64 sqrt sum dot).sqrtClip (F64.abs (F64.mul vx vy)))) = fin 0 := by
  have hm : F64.abs (F64.mul vx vy) = nan ∨ F64.abs (F64.mul vx vy) = inf false := by
    rcases F64.not_finite.1 hx with rfl | ⟨s, rfl⟩ <;> rcases F64.not_finite.1 hy with rfl | ⟨t, rfl⟩
    · exact .inl rfl
    · exact .inl rfl
    · exact .inl rfl
    · exact .inr rfl
  rcases hm with e | e <;> rw [e]
  · rw [sqrtClip_nan h]
    left
    show (if false = true then _ else F64.div c nan) = nan
    rw [if_neg (by decide)]
    cases c <;> rfl
  · have r0 : F64.round ((0 : ℤ) : ℚ) = fin 0 := by decide +kernel
    have hs : (ieee64 sqrt sum dot).sqrtClip (inf false) = inf false := by
      show sqrt (if F64.lt (inf false) (F64.round ((0 : ℤ) : ℚ)) = true then F64.round ((0 : ℤ) : ℚ) else inf false) = _
      rw [r0, if_neg (by decide)]
      exact h.sqrt (inf false)
    have hz : (ieee64 sqrt sum dot).eqZero (inf false) = false := by
      show F64.eq (inf false) (F64.round ((0 : ℤ) : ℚ)) = false
      rw [r0]
      rfl
    rw [hs, hz, if_neg (by decide)]
    cases c
    · exact .inl rfl
    · exact .inl rfl
    · exact .inr rfl

end Dcor

/-
The row-wise functions in `float64`: the quotient with two divisions, and the entries of the lists.
-/
import Verif.Model.RoundingRowwise
import Verif.Proofs.FloatPartialCorr
import Verif.Proofs.FloatCorr

namespace Dcor

/-! ### The rows -/

section Rows

variable {R : Type} (A : Arith R) {n k : ℕ} {unbiased : Bool} {argsort : (Fin n → R) → Equiv.Perm (Fin n)}

theorem rowwiseCovariance_eq {X Y : Fin k → Fin n → R} {c : Fin k → R}
    (h : ∀ i, A.rowCovariance unbiased argsort (X i) (Y i) = .ok (c i)) :
    A.rowwiseCovariance unbiased argsort (List.ofFn X) (List.ofFn Y) = .ok (List.ofFn c) := by
  unfold Arith.rowwiseCovariance
  have e : (List.ofFn X).zip (List.ofFn Y) = (List.finRange k).map fun i => (X i, Y i) := by
    rw [← List.ofFn_id, List.map_ofFn]
    apply List.ext_getElem <;> simp
  have e' : List.ofFn c = (List.finRange k).map c := by
    rw [← List.ofFn_id, List.map_ofFn]; rfl
  rw [e, e']
  generalize List.finRange k = l
  induction l with
  | nil => rfl
  | cons i l ih =>
    rw [List.map_cons, List.mapM_cons, h i, ih]
    rfl

theorem mapM_append_ok {α β : Type} {f : α → Except PyErr β} {l l' : List α} {r r' : List β}
    (h : l.mapM f = .ok r) (h' : l'.mapM f = .ok r') : (l ++ l').mapM f = .ok (r ++ r') := by
  rw [List.mapM_append, h, h']
  rfl

theorem rowwiseCorrelation_eq {X Y : Fin k → Fin n → R} {c vx vy : Fin k → R}
    (h : ∀ i, A.rowCovariance unbiased argsort (X i) (Y i) = .ok (c i))
    (hx : ∀ i, A.rowCovariance unbiased argsort (X i) (X i) = .ok (vx i))
    (hy : ∀ i, A.rowCovariance unbiased argsort (Y i) (Y i) = .ok (vy i)) :
    A.rowwiseCorrelation unbiased argsort (List.ofFn X) (List.ofFn Y)
      = .ok (List.ofFn fun i => A.rowQuotient (c i) (vx i) (vy i)) := by
  have key : A.rowwiseCovariance unbiased argsort (List.ofFn X ++ List.ofFn X ++ List.ofFn Y)
      (List.ofFn Y ++ List.ofFn X ++ List.ofFn Y) = .ok (List.ofFn c ++ List.ofFn vx ++ List.ofFn vy) := by
    unfold Arith.rowwiseCovariance
    rw [List.zip_append (by simp), List.zip_append (by simp)]
    exact mapM_append_ok (mapM_append_ok (rowwiseCovariance_eq A h) (rowwiseCovariance_eq A hx))
      (rowwiseCovariance_eq A hy)
  unfold Arith.rowwiseCorrelation
  rw [key]
  show Except.ok _ = Except.ok _
  congr 1
  rw [List.length_ofFn]
  have e1 : (List.ofFn c ++ List.ofFn vx ++ List.ofFn vy).take k = List.ofFn c := by
    rw [List.append_assoc, List.take_left' (by simp)]
  have e2 : ((List.ofFn c ++ List.ofFn vx ++ List.ofFn vy).drop k).take k = List.ofFn vx := by
    rw [List.append_assoc, List.drop_left' (by simp), List.take_left' (by simp)]
  have e3 : (List.ofFn c ++ List.ofFn vx ++ List.ofFn vy).drop (2 * k) = List.ofFn vy := by
    rw [List.drop_left' (by simp; ring)]
  rw [e1, e2, e3]
  apply List.ext_getElem <;> simp

end Rows

/-! ### The quotient -/

section Quotient

variable {sqrt : ℚ → ℚ} {sum : List ℚ → ℚ} {dot : List (ℚ × ℚ) → ℚ}

/-- The two standard deviations, rounded separately. -/
theorem row_denominator (h : IsFloat64 sqrt sum dot) {vx' vy' : ℚ} {vx vy r : ℝ} (hx0 : 0 < vx) (hy0 : 0 < vy)
    (hr : r ≤ 1 / 4) (hx : |(vx' : ℝ) - vx| ≤ r * vx) (hy : |(vy' : ℝ) - vy| ≤ r * vy) :
    0 < (binary64 sqrt sum dot).sqrtClip vx' ∧ 0 < (binary64 sqrt sum dot).sqrtClip vy' ∧
      (1 - r - 2 / 2 ^ 53) * Real.sqrt (vx * vy)
        ≤ ((binary64 sqrt sum dot).sqrtClip vx' : ℝ) * (binary64 sqrt sum dot).sqrtClip vy' ∧
      ((binary64 sqrt sum dot).sqrtClip vx' : ℝ) * (binary64 sqrt sum dot).sqrtClip vy'
        ≤ (1 + r + 3 / 2 ^ 53) * Real.sqrt (vx * vy) := by
  have r0 : 0 ≤ r := nonneg_of_mul_nonneg_left ((abs_nonneg _).trans hx) hx0
  obtain ⟨u, hu⟩ : ∃ u : ℝ, u = 1 / 2 ^ 53 := ⟨_, rfl⟩
  have u0 : 0 < u := by rw [hu]; positivity
  have u1 : u ≤ 1 / 100 := by rw [hu]; norm_num
  have dv : ∀ z : ℝ, z / 2 ^ 53 = z * u := fun z => by rw [hu]; ring
  have hr1 : 0 < 1 - r := by linarith
  have one : ∀ {v' : ℚ} {v : ℝ}, 0 < v → |(v' : ℝ) - v| ≤ r * v →
      0 < (binary64 sqrt sum dot).sqrtClip v' ∧
      (1 - u) * (Real.sqrt (1 - r) * Real.sqrt v) ≤ ((binary64 sqrt sum dot).sqrtClip v' : ℝ) ∧
      ((binary64 sqrt sum dot).sqrtClip v' : ℝ) ≤ (1 + u) * (Real.sqrt (1 + r) * Real.sqrt v) := by
    intro v' v hv hd
    obtain ⟨h1, h2⟩ := abs_le.1 hd
    have e1 : (1 - r) * v ≤ v' := by linarith
    have e2 : (v' : ℝ) ≤ (1 + r) * v := by linarith
    have pv : (0 : ℝ) < v' := lt_of_lt_of_le (by positivity) e1
    have pq : 0 < v' := by exact_mod_cast pv
    rw [sqrtClip_pos pq]
    have herr := (h.sqrt _ pq.le).err
    rw [dv] at herr
    obtain ⟨hs1, hs2⟩ := abs_le.1 herr
    have s1 : Real.sqrt (1 - r) * Real.sqrt v ≤ Real.sqrt v' := by
      rw [← Real.sqrt_mul hr1.le]; exact Real.sqrt_le_sqrt e1
    have s2 : Real.sqrt v' ≤ Real.sqrt (1 + r) * Real.sqrt v := by
      rw [← Real.sqrt_mul (by linarith)]; exact Real.sqrt_le_sqrt e2
    have lo : (1 - u) * (Real.sqrt (1 - r) * Real.sqrt v) ≤ (sqrt v' : ℝ) :=
      (mul_le_mul_of_nonneg_left s1 (by linarith)).trans (by linarith)
    refine ⟨?_, lo, le_trans (by linarith) (mul_le_mul_of_nonneg_left s2 (by linarith : (0 : ℝ) ≤ 1 + u))⟩
    have : (0 : ℝ) < sqrt v' := lt_of_lt_of_le
      (mul_pos (by linarith) (mul_pos (Real.sqrt_pos.2 hr1) (Real.sqrt_pos.2 hv))) lo
    exact_mod_cast this
  obtain ⟨p1, l1, m1⟩ := one hx0 hx
  obtain ⟨p2, l2, m2⟩ := one hy0 hy
  refine ⟨p1, p2, ?_, ?_⟩
  · rw [dv]
    have e : (1 - u) * (Real.sqrt (1 - r) * Real.sqrt vx) * ((1 - u) * (Real.sqrt (1 - r) * Real.sqrt vy))
        = (1 - u) ^ 2 * (1 - r) * Real.sqrt (vx * vy) := by
      rw [Real.sqrt_mul hx0.le]
      have := Real.mul_self_sqrt hr1.le
      calc _ = (1 - u) ^ 2 * (Real.sqrt (1 - r) * Real.sqrt (1 - r)) * (Real.sqrt vx * Real.sqrt vy) := by ring
        _ = _ := by rw [this]
    calc (1 - r - 2 * u) * Real.sqrt (vx * vy) ≤ (1 - u) ^ 2 * (1 - r) * Real.sqrt (vx * vy) := by
          apply mul_le_mul_of_nonneg_right _ (Real.sqrt_nonneg _)
          nlinarith [mul_nonneg r0 u0.le, mul_nonneg hr1.le (sq_nonneg u)]
      _ = _ := e.symm
      _ ≤ _ := mul_le_mul l1 l2 (mul_nonneg (by linarith) (by positivity)) (by exact_mod_cast p1.le)
  · rw [dv]
    have e : (1 + u) * (Real.sqrt (1 + r) * Real.sqrt vx) * ((1 + u) * (Real.sqrt (1 + r) * Real.sqrt vy))
        = (1 + u) ^ 2 * (1 + r) * Real.sqrt (vx * vy) := by
      rw [Real.sqrt_mul hx0.le]
      have := Real.mul_self_sqrt (show 0 ≤ 1 + r by linarith)
      calc _ = (1 + u) ^ 2 * (Real.sqrt (1 + r) * Real.sqrt (1 + r)) * (Real.sqrt vx * Real.sqrt vy) := by ring
        _ = _ := by rw [this]
    calc _ ≤ _ := mul_le_mul m1 m2 (by exact_mod_cast p2.le) (by positivity)
      _ = _ := e
      _ ≤ _ := by
          apply mul_le_mul_of_nonneg_right _ (Real.sqrt_nonneg _)
          nlinarith [mul_le_mul_of_nonneg_right hr u0.le, mul_le_mul_of_nonneg_right u1 u0.le,
            mul_nonneg r0 (sq_nonneg u), mul_le_mul_of_nonneg_right hr (sq_nonneg u)]

/-- Quotients of close numerators and denominators. -/
theorem quotient_close {c' d c D r u : ℝ} (hD0 : 0 < D) (r0 : 0 ≤ r) (hr : r ≤ 1 / 4) (u0 : 0 < u) (u1 : u ≤ 1 / 1000)
    (h1 : (1 - r - 2 * u) * D ≤ d) (h2 : d ≤ (1 + r + 3 * u) * D) (hc : |c' - c| ≤ r * D) (hle : |c| ≤ D) :
    |c' / d - c / D| ≤ (2 * r + 3 * u) * (4 / 3 + 4 * u) ∧ |c' / d| ≤ 7 / 4 := by
  have hd : 0 < d := lt_of_lt_of_le (mul_pos (by linarith) hD0) h1
  have hlow : (3 / 4 - 2 * u) * D ≤ d := le_trans (mul_le_mul_of_nonneg_right (by linarith) hD0.le) h1
  have k1 : |c'| ≤ (1 + r) * D := by
    calc |c'| = |(c' - c) + c| := by ring_nf
      _ ≤ |c' - c| + |c| := abs_add_le _ _
      _ ≤ r * D + D := add_le_add hc hle
      _ = _ := by ring
  have k2 : |c' * D - c * d| ≤ (2 * r + 3 * u) * D * D := by
    have hq : |d - D| ≤ (r + 3 * u) * D := by
      rw [abs_le]; constructor <;> nlinarith [mul_pos u0 hD0]
    calc |c' * D - c * d| = |(c' - c) * D + c * (D - d)| := by ring_nf
      _ ≤ |(c' - c) * D| + |c * (D - d)| := abs_add_le _ _
      _ = |c' - c| * D + |c| * |d - D| := by
          rw [abs_mul, abs_mul, abs_of_pos hD0, abs_sub_comm D]
      _ ≤ r * D * D + D * ((r + 3 * u) * D) := by gcongr
      _ = _ := by ring
  have k3 : |c' / d - c / D| ≤ (2 * r + 3 * u) * (D / d) := by
    have : c' / d - c / D = (c' * D - c * d) / (d * D) := by field_simp
    rw [this, abs_div, abs_of_pos (mul_pos hd hD0), div_le_iff₀ (mul_pos hd hD0)]
    calc _ ≤ (2 * r + 3 * u) * D * D := k2
      _ = (2 * r + 3 * u) * (D / d) * (d * D) := by field_simp
  have k4 : D / d ≤ 4 / 3 + 4 * u := by
    rw [div_le_iff₀ hd]
    calc D ≤ ((4 / 3 + 4 * u) * (3 / 4 - 2 * u)) * D := by
          nlinarith [mul_pos u0 hD0, mul_le_mul_of_nonneg_right u1 (mul_pos u0 hD0).le]
      _ = (4 / 3 + 4 * u) * ((3 / 4 - 2 * u) * D) := by ring
      _ ≤ _ := mul_le_mul_of_nonneg_left hlow (by positivity)
  refine ⟨k3.trans (mul_le_mul_of_nonneg_left k4 (by positivity)), ?_⟩
  rw [abs_div, abs_of_pos hd, div_le_iff₀ hd]
  nlinarith

theorem isNan_binary64 (a : ℚ) : (binary64 sqrt sum dot).isNan a = false := by
  show (!decide (a = a)) = false
  simp

/-- The quotient is close to the exact one, if numerator and variances are. -/
theorem row_quotient_error (h : IsFloat64 sqrt sum dot) {c' vx' vy' : ℚ} {c vx vy r : ℝ} (hx0 : 0 < vx) (hy0 : 0 < vy)
    (hr : r ≤ 1 / 4) (hc : |(c' : ℝ) - c| ≤ r * Real.sqrt (vx * vy)) (hx : |(vx' : ℝ) - vx| ≤ r * vx)
    (hy : |(vy' : ℝ) - vy| ≤ r * vy) (hle : |c| ≤ Real.sqrt (vx * vy)) :
    |((binary64 sqrt sum dot).rowQuotient c' vx' vy' : ℝ) - Spec.ratio c vx vy| ≤ 3 * r + 8 / 2 ^ 53 := by
  have r0 : 0 ≤ r := nonneg_of_mul_nonneg_left ((abs_nonneg _).trans hx) hx0
  obtain ⟨p1, p2, h1, h2⟩ := row_denominator h hx0 hy0 hr hx hy
  unfold Arith.rowQuotient
  simp only [isNan_binary64, Bool.false_eq_true, if_false]
  generalize (binary64 sqrt sum dot).sqrtClip vx' = a at *
  generalize (binary64 sqrt sum dot).sqrtClip vy' = b at *
  show |((round64 (round64 (c' / a) / b) : ℚ) : ℝ) - _| ≤ _
  have hD0 : 0 < Real.sqrt (vx * vy) := Real.sqrt_pos.2 (mul_pos hx0 hy0)
  have hratio : Spec.ratio c vx vy = c / Real.sqrt (vx * vy) := by
    unfold Spec.ratio
    rw [if_neg (mul_pos hx0 hy0).ne', abs_of_pos (mul_pos hx0 hy0)]
  rw [hratio]
  generalize Real.sqrt (vx * vy) = D at *
  have pa : (0 : ℝ) < a := by exact_mod_cast p1
  have pb : (0 : ℝ) < b := by exact_mod_cast p2
  have he1 := (Rat.cast_le (K := ℝ)).2 (round64_err (c' / a))
  have he2 := (Rat.cast_le (K := ℝ)).2 (round64_err (round64 (c' / a) / b))
  push_cast at he1 he2
  generalize round64 (round64 (c' / a) / b) = z at *
  generalize round64 (c' / a) = w at *
  obtain ⟨u, hu⟩ : ∃ u : ℝ, u = 1 / 2 ^ 53 := ⟨_, rfl⟩
  have u0 : 0 < u := by rw [hu]; positivity
  have u1 : u ≤ 1 / 1000 := by rw [hu]; norm_num
  have dv : ∀ z : ℝ, z / 2 ^ 53 = z * u := fun z => by rw [hu]; ring
  rw [dv] at he1 he2 h1 h2 ⊢
  obtain ⟨q1, q2⟩ := quotient_close hD0 r0 hr u0 u1 h1 h2 hc hle
  clear hu dv
  have e1 : |(w : ℝ) / b - c' / (a * b)| ≤ |(c' : ℝ) / (a * b)| * u := by
    have : (w : ℝ) / b - c' / (a * b) = (w - c' / a) / b := by field_simp
    rw [this, abs_div, abs_of_pos pb, div_le_iff₀ pb]
    refine he1.trans (le_of_eq ?_)
    rw [abs_div, abs_div, abs_of_pos pa, abs_of_pos (mul_pos pa pb)]
    field_simp
  have e2 : |(w : ℝ) / b| ≤ |(c' : ℝ) / (a * b)| + |(c' : ℝ) / (a * b)| * u := by
    have := abs_add_le ((w : ℝ) / b - c' / (a * b)) (c' / (a * b))
    rw [sub_add_cancel] at this
    linarith
  have e3 := abs_add_le ((z : ℝ) - w / b) ((w : ℝ) / b - c' / (a * b))
  rw [sub_add_sub_cancel] at e3
  have e4 := abs_add_le ((z : ℝ) - c' / (a * b)) ((c' : ℝ) / (a * b) - c / D)
  rw [sub_add_sub_cancel] at e4
  have t1 : |(c' : ℝ) / (a * b)| * u ≤ 7 / 4 * u := mul_le_mul_of_nonneg_right q2 u0.le
  have t2 : |(w : ℝ) / b| * u ≤ (7 / 4 + 7 / 4 * u) * u := mul_le_mul_of_nonneg_right (by linarith) u0.le
  have t5 := mul_le_mul_of_nonneg_left u1 r0
  have t6 := mul_le_mul_of_nonneg_right u1 u0.le
  nlinarith

end Quotient

end Dcor

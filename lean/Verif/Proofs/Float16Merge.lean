/-
The mergesort method on `float16`: what is not finite stays so, and small integers are exact.
-/
import Verif.Model.Float16Merge
import Verif.Proofs.Float16
import Verif.Proofs.IntExactMerge

namespace Dcor

namespace F16

open F64

theorem mul_right {b : F64} (h : ¬ b.Finite) (a : F64) : ¬ (mul a b).Finite := by
  cases b with
  | fin q => exact absurd trivial h
  | nan => cases a <;> exact id
  | inf s => cases a with
    | fin q =>
      show ¬ (F64.mul (fin q) (inf s)).Finite
      unfold F64.mul
      dsimp only
      split_ifs <;> exact id
    | _ => exact id

theorem neg_not_finite {a : F64} (h : ¬ a.Finite) : ¬ (F64.neg a).Finite := by
  cases a with
  | fin q => exact absurd trivial h
  | _ => exact id

theorem sub_right {b : F64} (h : ¬ b.Finite) (a : F64) : ¬ (sub a b).Finite := add_right (neg_not_finite h) _

theorem mul32_left {a : F64} (h : ¬ a.Finite) (b : F64) : ¬ (mul32 a b).Finite := by
  cases a with
  | fin q => exact absurd trivial h
  | nan => exact id
  | inf s => cases b with
    | fin q =>
      show ¬ (if q = 0 then nan else inf (s != decide (q < 0))).Finite
      split_ifs <;> exact id
    | _ => exact id

theorem IsDot.not_finite {dot : List (F64 × F64) → F64} (h : IsDot dot) {l : List (F64 × F64)}
    (hl : ∃ p ∈ l, ¬ p.1.Finite) : ¬ (dot l).Finite := by
  obtain ⟨r, hr, e⟩ := h l
  obtain ⟨p, hp, hf⟩ := hl
  rw [e]
  exact cast_not_finite (hr.not_finite ⟨_, List.mem_map.2 ⟨p, hp, rfl⟩, mul32_left hf _⟩)

theorem dotSeq_isDot : IsDot dotSeq := fun _ => sumSeq_isSum _

end F16

open F64

variable {sum16 : List F64 → F64} {dot16 : List (F64 × F64) → F64} {n : ℕ}

/-- The terms exist. -/
theorem mergesortTermsSingle_ok {R : Type} (S D : Arith R) (ge : R → R → Bool) (argsort : (Fin n → R) → Equiv.Perm (Fin n))
    (x y : Fin n → R) (hn : 0 < n) :
    ∃ t, Arith.mergesortTermsSingle S D ge argsort x y = .ok t ∧
      S.computeAijbijTerm ge (fun i => x (argsort x i)) (fun i => y (argsort x i)) = .ok t.meanProd := by
  obtain ⟨r, e, _⟩ := computeWeightSums_safe S ge (fun i => y (argsort x i)) (fun i =>
    (![S.ofInt 1, y (argsort x i), x (argsort x i), S.mul (x (argsort x i)) (y (argsort x i))] : Fin 4 → R))
  have hrow : ∀ v : Fin n → R, ∃ a, Arith.rowSumsSingle S D v = .ok a := by
    intro v
    unfold Arith.rowSumsSingle
    rw [dif_pos hn]
    exact ⟨_, rfl⟩
  obtain ⟨a, ea⟩ := hrow fun i => x (argsort x i)
  obtain ⟨b, eb⟩ := hrow fun i => y (argsort x ((argsort fun i => y (argsort x i)) i))
  unfold Arith.mergesortTermsSingle Arith.computeAijbijTerm
  dsimp only
  rw [e, ea, eb]
  exact ⟨_, rfl, rfl⟩

/-- If a multiple `n * x[i]` is not finite, nor is the sum of the products of distances. -/
theorem aijbijHalf_not_finite (hd : F16.IsDot dot16) (ge : F64 → F64 → Bool) {x y : Fin n → F64} {i : Fin n}
    (h : ¬ (F16.mul (F16.round ((n : ℤ) : ℚ)) (x i)).Finite) {d : F64}
    (e : (ieee16m sum16 dot16).computeAijbijTerm ge x y = .ok d) : ¬ d.Finite := by
  obtain ⟨r, er, _⟩ := computeWeightSums_safe (ieee16m sum16 dot16) ge y (fun i =>
    (![(ieee16m sum16 dot16).ofInt 1, y i, x i, (ieee16m sum16 dot16).mul (x i) (y i)] : Fin 4 → F64))
  unfold Arith.computeAijbijTerm at e
  dsimp only at e
  rw [er] at e
  injection e with e
  rw [← e]
  refine F16.sub_right (F16.mul_right (F16.add_left (F16.sub_left (hd.not_finite ⟨_, List.mem_ofFn.2 ⟨i, rfl⟩, h⟩) _) _) _) _

/-- The same for the product of two observations that belong together. -/
theorem aijbijHalf_not_finite' (hd : F16.IsDot dot16) (ge : F64 → F64 → Bool) {x y : Fin n → F64} {i : Fin n}
    (h : ¬ (F16.mul (x i) (y i)).Finite) {d : F64}
    (e : (ieee16m sum16 dot16).computeAijbijTerm ge x y = .ok d) : ¬ d.Finite := by
  obtain ⟨r, er, _⟩ := computeWeightSums_safe (ieee16m sum16 dot16) ge y (fun i =>
    (![(ieee16m sum16 dot16).ofInt 1, y i, x i, (ieee16m sum16 dot16).mul (x i) (y i)] : Fin 4 → F64))
  unfold Arith.computeAijbijTerm at e
  dsimp only at e
  rw [er] at e
  injection e with e
  rw [← e]
  refine F16.sub_left (F16.mul_right (F16.add_left (F16.sub_left (F16.sub_left
    (hd.not_finite ⟨_, List.mem_ofFn.2 ⟨i, rfl⟩, h⟩) _) _) _) _) _

variable {sqrt : F64 → F64} {sum : List F64 → F64} {dot : List (F64 × F64) → F64}

theorem F64.div_left_not_finite {a : F64} (h : ¬ a.Finite) (b : F64) : ¬ (F64.div a b).Finite := by
  cases a with
  | fin q => exact absurd trivial h
  | nan => exact id
  | inf s => cases b <;> exact id

/-- A mean of products that is not finite gives a covariance that is not finite. -/
theorem covFromTerms_not_finite (bc : Bool) {t : CoreTerms F64 n} (h : ¬ t.meanProd.Finite) :
    ¬ ((ieee64 sqrt sum dot).covFromTerms bc t).Finite :=
  F64.add_left_not_finite (F64.sub_left_not_finite (F64.div_left_not_finite (F64.div_left_not_finite h _) _) _) _

/-- A small number times a large one. -/
theorem F16.mul_large {m : ℕ} (hm : m ≤ 2 ^ 11) {a : ℚ} (h : 65520 ≤ m * |a|) :
    ¬ (F16.mul (F16.round ((m : ℤ) : ℚ)) (fin a)).Finite := by
  rw [F16.round_int m (by rw [abs_of_nonneg (by positivity)]; exact_mod_cast hm)]
  apply F16.round_large
  rw [abs_mul]
  simpa using h

/-- A number of observations that is infinite in `float16`. -/
theorem F16.mul_many {m : ℕ} (hm : 65520 ≤ m) (a : F64) : ¬ (F16.mul (F16.round ((m : ℤ) : ℚ)) a).Finite := by
  apply F16.mul_left
  apply F16.round_large
  push_cast
  rw [abs_of_nonneg (by positivity)]
  exact_mod_cast hm

end Dcor

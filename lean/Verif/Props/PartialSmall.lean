/-
Property C123: the partial distance covariance and correlation of fewer than four observations.
-/
import Verif.Proofs.Partial
import Verif.Props.SmallSamples

namespace Dcor.Props

open Finset

variable {n p q r : ℕ} {env : Env} {x y z : Arr} {X : Fin n → Fin p → ℝ} {Y : Fin n → Fin q → ℝ} {Z : Fin n → Fin r → ℝ}

/-- C123, full statement: with fewer than four observations, for which the inner product of U-centred matrices is not
defined, the functions return NaN. -/
def C123_statement : Prop :=
  ∀ (env : Env) (x y z : Arr) (n p q r : ℕ) (X : Fin n → Fin p → ℝ) (Y : Fin n → Fin q → ℝ) (Z : Fin n → Fin r → ℝ), n ≤ 3 →
    Holds x.data n p X → Holds y.data n q Y → Holds z.data n r Z →
    (partialDistanceCovariance env x y z).out = .ok .nan ∧ (partialDistanceCorrelation env x y z).out = .ok .nan

/-- Matrices with fewer than four rows that do not have a finite inner product. -/
private def Undefined : (n : ℕ) → FMat n → Prop
  | 0, _ => True
  | 2, a => ∀ i j, i ≠ j → a i j = .nan
  | 3, a => ∀ i j, a i j = .fin 0 ∨ a i j = .nan
  | _, _ => False

private theorem sum_nan {ι : Type} {s : Finset ι} {f : ι → FP ℝ} {i : ι} (hi : i ∈ s) (h : f i = .nan) : ∑ k ∈ s, f k = .nan := by
  classical
  rw [← add_sum_erase s _ hi, h, FP.nan_add]

private theorem sum_zero_or_nan {ι : Type} {s : Finset ι} {f : ι → FP ℝ} (h : ∀ i, f i = .fin 0 ∨ f i = .nan) :
    ∑ k ∈ s, f k = .fin 0 ∨ ∑ k ∈ s, f k = .nan := by
  classical
  by_cases h' : ∃ i ∈ s, f i = .nan
  · obtain ⟨i, hi, e⟩ := h'
    exact Or.inr (sum_nan hi e)
  · refine Or.inl ?_
    rw [sum_congr rfl (g := fun _ => FP.fin 0) fun i hi => (h i).resolve_right fun e => h' ⟨i, hi, e⟩, FP.fin_sum]
    simp

private theorem zero_div_zero : (FP.fin 0 / FP.fin 0 : FP ℝ) = .nan := by
  rw [FP.fin_div', if_pos rfl, FP.infOfSign, if_pos rfl]

private theorem uProductB_eq (k k' : NumKind) (a b : FMat n) :
    uProductB ⟨n, k, a⟩ ⟨n, k', b⟩
      = npDiv (k.join k') (∑ i, ∑ j, a i j * b i j) ((n : ℤ) * ((n : ℤ) - 3)) := by
  unfold uProductB FSq.zipWith
  simp only [dite_true]
  rfl

private theorem product_nan {a b : FMat n} (ha : Undefined n a) (hb : Undefined n b) :
    (∑ i, ∑ j, a i j * b i j) / .fin ((((n : ℤ) * ((n : ℤ) - 3) : ℤ)) : ℝ) = .nan := by
  match n, a, b, ha, hb with
  | 0, a, b, _, _ =>
    have e : ((((0 : ℕ) : ℤ) * (((0 : ℕ) : ℤ) - 3) : ℤ) : ℝ) = 0 := by norm_num
    rw [e]
    exact zero_div_zero
  | 2, a, b, ha, _ =>
    have h : ∑ j, a 0 j * b 0 j = .nan := sum_nan (mem_univ (1 : Fin 2)) (by rw [ha 0 1 (by decide), FP.nan_mul])
    rw [sum_nan (mem_univ (0 : Fin 2)) h, FP.nan_div]
  | 3, a, b, ha, hb =>
    have e : ((((3 : ℕ) : ℤ) * (((3 : ℕ) : ℤ) - 3) : ℤ) : ℝ) = 0 := by norm_num
    have h := sum_zero_or_nan (s := univ) fun i => sum_zero_or_nan (s := univ) fun j =>
      (show a i j * b i j = .fin 0 ∨ a i j * b i j = .nan by
        rcases ha i j with h | h <;> rcases hb i j with h' | h' <;> rw [h, h']
        · left; rw [FP.fin_mul, mul_zero]
        · right; exact FP.mul_nan _
        · right; exact FP.nan_mul _
        · right; exact FP.nan_mul _)
    rw [e]
    rcases h with h | h <;> rw [h]
    · exact zero_div_zero
    · exact FP.nan_div _

private theorem uProductB_nan {a b : FMat n} (ha : Undefined n a) (hb : Undefined n b) :
    uProductB ⟨n, .numpy, a⟩ ⟨n, .numpy, b⟩ = .ok .nan := by
  rw [uProductB_eq, npDiv, if_neg (fun h => by cases h.1), product_nan ha hb]

private theorem undefined_nan (h : n = 0 ∨ n = 2 ∨ n = 3) : Undefined n fun _ _ => .nan := by
  rcases h with rfl | rfl | rfl
  · trivial
  · exact fun _ _ _ => rfl
  · exact fun _ _ => Or.inr rfl

private theorem complementary_nan {a c : FMat n} (ha : Undefined n a) (hc : Undefined n c) :
    uComplementaryProjectionB ⟨n, .numpy, c⟩ .nan ⟨n, .numpy, a⟩ = .ok ⟨n, .numpy, fun _ _ => .nan⟩ := by
  unfold uComplementaryProjectionB uProjectionB
  rw [if_neg (fun h : FP.IsZero .nan => h), uProductB_nan ha hc]
  simp only [Except.ok_bind', Except.pure_eq]
  unfold FSq.zipWith
  simp only [dite_true]
  congr 2
  funext i j
  show a i j - FP.nan / FP.nan * _ = _
  rw [FP.nan_div, FP.nan_mul, FP.sub_nan]

private theorem uDistanceMatrix_numpy (hx : Holds x.data n p X) (ho : x.dtype.isObject = false) :
    uDistanceMatrix env x = PyM.pure ⟨n, .numpy, uCentered (FMat.ofReal (Spec.distMat 1 X))⟩ := by
  have hk : objKind x x = .numpy := by simp [objKind, ho]
  have hc : checkValidDcovExponent 1 = PyM.pure () := by
    unfold checkValidDcovExponent
    rw [if_pos ⟨by norm_num, by norm_num⟩]
  unfold uDistanceMatrix
  rw [hc, PyM.pure_bind', hx.to2d, PyM.lift_ok_bind, pdist_eq env _ _ _ 1 (fun _ => ⟨1, by norm_num⟩), PyM.lift_ok_bind, hk,
    if_neg (fun h => by cases h.1)]

private theorem div_zero_cases (a : ℝ) : (FP.fin a / FP.fin 0 : FP ℝ) = .nan ∨ (FP.fin a / FP.fin 0 : FP ℝ) = .pinf ∨
    (FP.fin a / FP.fin 0 : FP ℝ) = .ninf := by
  rw [FP.fin_div', if_pos rfl, FP.infOfSign]
  split_ifs <;> simp

private theorem uCentre_three {d : Fin 3 → Fin 3 → ℝ} (hs : ∀ i j, d i j = d j i) (h0 : ∀ i, d i i = 0) (i j : Fin 3) :
    Spec.uCentre d i j = 0 := by
  have h01 := hs 0 1
  have h02 := hs 0 2
  have h12 := hs 1 2
  have e0 := h0 0
  have e1 := h0 1
  have e2 := h0 2
  unfold Spec.uCentre
  fin_cases i <;> fin_cases j <;> simp [Fin.sum_univ_three] <;> norm_num <;> linarith

private theorem undefined_uCentered (h : n = 0 ∨ n = 2 ∨ n = 3) (X : Fin n → Fin p → ℝ) :
    Undefined n (uCentered (FMat.ofReal (Spec.distMat 1 X))) := by
  have hs : ∀ i j, Spec.distMat 1 X i j = Spec.distMat 1 X j i := Spec.distMat_symm 1 X
  have h0 : ∀ i, Spec.distMat 1 X i i = 0 := fun i => Spec.dist_self one_ne_zero _
  rcases h with rfl | rfl | rfl
  · trivial
  · intro i j hij
    have key : ∀ i, ∑ j, FMat.ofReal (Spec.distMat 1 X) i j = .fin (Spec.distMat 1 X 0 1) := by
      intro i
      unfold FMat.ofReal
      rw [FP.fin_sum, Fin.sum_univ_two]
      fin_cases i
      · show FP.fin (Spec.distMat 1 X 0 0 + Spec.distMat 1 X 0 1) = _
        rw [h0, zero_add]
      · show FP.fin (Spec.distMat 1 X 1 0 + Spec.distMat 1 X 1 1) = _
        rw [h0, add_zero, hs]
    unfold uCentered symmetricMatrixSums
    simp only [key, if_neg hij]
    have e1 : (((2 : ℕ) : ℝ) - 2) = 0 := by norm_num
    have e2 : ((((2 : ℕ) : ℝ) - 1) * (((2 : ℕ) : ℝ) - 2)) = 0 := by norm_num
    rw [e2, e1, FP.fin_sum, Fin.sum_univ_two]
    rcases lt_trichotomy (Spec.distMat 1 X 0 1) 0 with h | h | h
    · exact absurd h (not_lt.2 (Spec.dist_nonneg _ _ _))
    · have : (FP.fin (Spec.distMat 1 X 0 1) / FP.fin 0 : FP ℝ) = .nan := by rw [h]; exact zero_div_zero
      rw [this, FP.sub_nan, FP.nan_add]
    · have t1 : (FP.fin (Spec.distMat 1 X 0 1) / FP.fin 0 : FP ℝ) = .pinf := by
        rw [FP.fin_div', if_pos rfl, FP.infOfSign, if_neg h.ne', if_pos h]
      have t2 : (FP.fin (Spec.distMat 1 X 0 1 + Spec.distMat 1 X 0 1) / FP.fin 0 : FP ℝ) = .pinf := by
        rw [FP.fin_div', if_pos rfl, FP.infOfSign, if_neg (by linarith), if_pos (by linarith)]
      rw [t1, t2]
      rfl
  · intro i j
    left
    rw [uCentered_symm (by norm_num) _ hs]
    exact congrArg FP.fin (uCentre_three hs h0 i j)

private theorem clipped_nan (a : FP ℝ) : clippedCorrelation a .nan = .nan := by
  unfold clippedCorrelation
  rw [if_neg (fun h : FP.IsZero .nan => h)]
  show FP.clip1 (a / sqrtClip .nan) = .nan
  have : sqrtClip .nan = .nan := rfl
  rw [this, FP.div_nan]
  rfl

/-- C123, as far as it holds: with no, two or three observations of floating point or integer numbers the functions return NaN
(in exact arithmetic). Missing: a single observation, and object arrays. -/
theorem C123_nan_partial (h : n = 0 ∨ n = 2 ∨ n = 3) (hx : Holds x.data n p X) (hy : Holds y.data n q Y) (hz : Holds z.data n r Z)
    (dx : x.dtype.isObject = false) (dy : y.dtype.isObject = false) (dz : z.dtype.isObject = false) :
    (partialDistanceCovariance env x y z).out = .ok .nan ∧ (partialDistanceCorrelation env x y z).out = .ok .nan := by
  have ux := undefined_uCentered h X
  have uy := undefined_uCentered h Y
  have uz := undefined_uCentered h Z
  constructor
  · unfold partialDistanceCovariance
    rw [uDistanceMatrix_numpy hx dx, uDistanceMatrix_numpy hy dy, uDistanceMatrix_numpy hz dz]
    simp only [PyM.pure_bind']
    rw [uProductB_nan uz uz, PyM.lift_ok_bind, complementary_nan ux uz, PyM.lift_ok_bind, complementary_nan uy uz,
      PyM.lift_ok_bind, uProductB_nan (undefined_nan h) (undefined_nan h)]
    rfl
  · unfold partialDistanceCorrelation
    rw [uDistanceMatrix_numpy hx dx, uDistanceMatrix_numpy hy dy, uDistanceMatrix_numpy hz dz]
    simp only [PyM.pure_bind']
    rw [uProductB_nan ux ux, uProductB_nan uy uy, uProductB_nan uz uz, uProductB_nan ux uy, uProductB_nan ux uz,
      uProductB_nan uy uz]
    simp only [PyM.lift_ok_bind, FP.nan_mul, clipped_nan]
    show Except.ok (partialFromCorrelations .nan .nan .nan) = _
    unfold partialFromCorrelations
    have : sqrtClip (.fin 1 - FP.nan * FP.nan) = .nan := rfl
    rw [this, FP.nan_mul, if_neg (fun h : FP.IsZero .nan => h), FP.div_nan]

private theorem uCentered_one (a : FMat 1) : uCentered a = fun _ _ => .fin 0 := by
  funext i j
  unfold uCentered
  rw [if_pos (Subsingleton.elim i j)]

private theorem uProductB_one : uProductB ⟨1, .numpy, fun _ _ => .fin 0⟩ ⟨1, .numpy, fun _ _ => .fin 0⟩ = .ok (.fin 0) := by
  have h2 : ((((1 : ℕ) : ℤ) * (((1 : ℕ) : ℤ) - 3) : ℤ) : ℝ) = -2 := by norm_num
  rw [uProductB_eq, npDiv, if_neg (fun h => by cases h.1), h2]
  simp only [Fin.sum_univ_one, FP.fin_mul]
  rw [FP.fin_div _ (by norm_num)]
  norm_num

/-- C123 fails for a single observation: the functions return 0, as if nothing were undefined. -/
theorem C123_single_observation {X : Fin 1 → Fin p → ℝ} {Y : Fin 1 → Fin q → ℝ} {Z : Fin 1 → Fin r → ℝ}
    (hx : Holds x.data 1 p X) (hy : Holds y.data 1 q Y) (hz : Holds z.data 1 r Z)
    (dx : x.dtype.isObject = false) (dy : y.dtype.isObject = false) (dz : z.dtype.isObject = false) :
    (partialDistanceCovariance env x y z).out = .ok (.fin 0) ∧ (partialDistanceCorrelation env x y z).out = .ok (.fin 0) := by
  have hzero : (FP.fin 0 : FP ℝ).IsZero := rfl
  constructor
  · unfold partialDistanceCovariance
    rw [uDistanceMatrix_numpy hx dx, uDistanceMatrix_numpy hy dy, uDistanceMatrix_numpy hz dz]
    simp only [PyM.pure_bind', uCentered_one]
    have hproj : uComplementaryProjectionB ⟨1, .numpy, fun _ _ => .fin 0⟩ (.fin 0) ⟨1, .numpy, fun _ _ => .fin 0⟩
        = .ok ⟨1, .numpy, fun _ _ => .fin 0⟩ := by
      unfold uComplementaryProjectionB uProjectionB
      rw [if_pos hzero]
      rw [Except.ok_bind']
      unfold FSq.zipWith
      simp only [dite_true]
      congr 2
      funext i j
      show FP.fin 0 - FP.fin 0 = FP.fin 0
      rw [FP.fin_sub, sub_zero]
    rw [uProductB_one, PyM.lift_ok_bind, hproj, PyM.lift_ok_bind, PyM.lift_ok_bind, uProductB_one]
    rfl
  · unfold partialDistanceCorrelation
    rw [uDistanceMatrix_numpy hx dx, uDistanceMatrix_numpy hy dy, uDistanceMatrix_numpy hz dz]
    simp only [PyM.pure_bind', uCentered_one]
    rw [uProductB_one]
    simp only [PyM.lift_ok_bind]
    have hc : clippedCorrelation (.fin 0) (.fin 0 * .fin 0) = .fin 0 := by
      unfold clippedCorrelation
      rw [FP.fin_mul, mul_zero, if_pos hzero]
      show FP.fin (max (-1) (min 0 1)) = _
      norm_num
    rw [hc]
    show Except.ok (partialFromCorrelations (.fin 0) (.fin 0) (.fin 0)) = _
    unfold partialFromCorrelations
    have hs : sqrtClip (.fin 1 - FP.fin 0 * FP.fin 0) = .fin 1 := by
      rw [FP.fin_mul, FP.fin_sub]
      show (if (1 : ℝ) - 0 * 0 < 0 then FP.fin (Real.sqrt 0) else FP.fin (Real.sqrt (1 - 0 * 0))) = _
      norm_num
    rw [hs, FP.fin_mul, if_neg (fun h => by have : (1 : ℝ) * 1 = 0 := h; norm_num at this), FP.fin_mul, FP.fin_sub,
      FP.fin_div _ (by norm_num)]
    norm_num

/-- Hence the full statement of C123 is false. -/
theorem C123_statement_false : ¬ C123_statement := by
  intro h
  have h1 := (h stdEnv (npVec ![(0 : ℝ)]) (npVec ![(0 : ℝ)]) (npVec ![(0 : ℝ)]) 1 1 1 1 _ _ _ (by norm_num)
    (npVec_holds _) (npVec_holds _) (npVec_holds _)).1
  rw [(C123_single_observation (npVec_holds ![(0 : ℝ)]) (npVec_holds ![(0 : ℝ)]) (npVec_holds ![(0 : ℝ)]) rfl rfl rfl).1] at h1
  cases h1

private theorem npDiv_python (a : FP ℝ) : npDiv .python a (((3 : ℕ) : ℤ) * (((3 : ℕ) : ℤ) - 3)) = .error .zeroDivisionError := by
  rw [npDiv, if_pos ⟨rfl, by norm_num⟩]

private theorem uDistanceMatrix_three {X : Fin 3 → Fin p → ℝ} (hx : Holds x.data 3 p X) :
    uDistanceMatrix env x = PyM.pure ⟨3, objKind x x, uCentered (FMat.ofReal (Spec.distMat 1 X))⟩ := by
  have hc : checkValidDcovExponent 1 = PyM.pure () := by
    unfold checkValidDcovExponent
    rw [if_pos ⟨by norm_num, by norm_num⟩]
  unfold uDistanceMatrix
  rw [hc, PyM.pure_bind', hx.to2d, PyM.lift_ok_bind, pdist_eq env _ _ _ 1 (fun _ => ⟨1, by norm_num⟩), PyM.lift_ok_bind,
    if_neg (fun h => by have := h.2; norm_num at this)]

private theorem objKind_fraction (h : x.dtype = .fraction) : objKind x x = .python := by simp [objKind, h, DType.isObject]

private theorem objKind_cases (hd : x.dtype ≠ .decimal) : x.dtype = .fraction ∨ (x.dtype.isObject = false ∧ objKind x x = .numpy) := by
  cases h : x.dtype <;> simp_all [objKind, DType.isObject]

/-- C123 fails for `Fraction`s: if one of the three samples at least holds `Fraction`s (and none `Decimal`s), then both functions
raise `ZeroDivisionError` for three observations. -/
theorem C123_fraction_crashes {X : Fin 3 → Fin p → ℝ} {Y : Fin 3 → Fin q → ℝ} {Z : Fin 3 → Fin r → ℝ}
    (hx : Holds x.data 3 p X) (hy : Holds y.data 3 q Y) (hz : Holds z.data 3 r Z)
    (hf : x.dtype = .fraction ∨ y.dtype = .fraction ∨ z.dtype = .fraction)
    (dx : x.dtype ≠ .decimal) (dy : y.dtype ≠ .decimal) (dz : z.dtype ≠ .decimal) :
    (partialDistanceCovariance env x y z).out = .error .zeroDivisionError ∧
    (partialDistanceCorrelation env x y z).out = .error .zeroDivisionError := by
  have three : (3 : ℕ) = 0 ∨ (3 : ℕ) = 2 ∨ (3 : ℕ) = 3 := Or.inr (Or.inr rfl)
  have ux := undefined_uCentered three X
  have uy := undefined_uCentered three Y
  have uz := undefined_uCentered three Z
  have crash : ∀ (k k' : NumKind) (a b : FMat 3), k.join k' = .python →
      uProductB ⟨3, k, a⟩ ⟨3, k', b⟩ = .error .zeroDivisionError := by
    intro k k' a b h
    rw [uProductB_eq, h, npDiv_python]
  constructor
  · unfold partialDistanceCovariance
    rw [uDistanceMatrix_three hx, uDistanceMatrix_three hy, uDistanceMatrix_three hz]
    simp only [PyM.pure_bind']
    rcases objKind_cases dz with h | ⟨-, h⟩
    · rw [crash _ _ _ _ (by rw [objKind_fraction h]; rfl)]
      rfl
    · rw [h, uProductB_nan uz uz, PyM.lift_ok_bind]
      have compl : ∀ a : FMat 3, uComplementaryProjectionB ⟨3, .numpy, uCentered (FMat.ofReal (Spec.distMat 1 Z))⟩ .nan
          ⟨3, .python, a⟩ = .error .zeroDivisionError := by
        intro a
        unfold uComplementaryProjectionB uProjectionB
        rw [if_neg (fun h : FP.IsZero .nan => h), crash _ _ _ _ rfl]
        rfl
      rcases objKind_cases dx with h' | ⟨hx', h'⟩
      · rw [objKind_fraction h', compl]
        rfl
      · rw [h', complementary_nan ux uz, PyM.lift_ok_bind]
        have hy' : y.dtype = .fraction := by
          rcases hf with e | e | e
          · rw [e] at hx'; cases hx'
          · exact e
          · rw [objKind_fraction e] at h; cases h
        rw [objKind_fraction hy', compl]
        rfl
  · unfold partialDistanceCorrelation
    rw [uDistanceMatrix_three hx, uDistanceMatrix_three hy, uDistanceMatrix_three hz]
    simp only [PyM.pure_bind']
    rcases objKind_cases dx with h | ⟨hx', h⟩
    · rw [crash _ _ _ _ (by rw [objKind_fraction h]; rfl)]
      rfl
    · rw [h, uProductB_nan ux ux, PyM.lift_ok_bind]
      rcases objKind_cases dy with h' | ⟨hy', h'⟩
      · rw [crash _ _ _ _ (by rw [objKind_fraction h']; rfl)]
        rfl
      · rw [h', uProductB_nan uy uy, PyM.lift_ok_bind]
        have hz' : z.dtype = .fraction := by
          rcases hf with e | e | e
          · rw [e] at hx'; cases hx'
          · rw [e] at hy'; cases hy'
          · exact e
        rw [crash _ _ _ _ (by rw [objKind_fraction hz']; rfl)]
        rfl

/-- Samples of different lengths: a single observation with three observations, given a single one, has partial distance
covariance 0, but NaN if the first two samples are exchanged. -/
theorem C123_not_symmetric {Y : Fin 3 → Fin q → ℝ} {X : Fin 1 → Fin p → ℝ} {Z : Fin 1 → Fin r → ℝ}
    (hx : Holds x.data 1 p X) (hy : Holds y.data 3 q Y) (hz : Holds z.data 1 r Z)
    (dx : x.dtype.isObject = false) (dy : y.dtype.isObject = false) (dz : z.dtype.isObject = false) :
    (partialDistanceCovariance env x y z).out = .ok (.fin 0) ∧ (partialDistanceCovariance env y x z).out = .ok .nan := by
  have hzero : (FP.fin 0 : FP ℝ).IsZero := rfl
  have hYc : uCentered (FMat.ofReal (Spec.distMat 1 Y)) = fun _ _ => .fin 0 := by
    rw [uCentered_symm (by norm_num) _ (Spec.distMat_symm 1 Y)]
    funext i j
    exact congrArg FP.fin (uCentre_three (Spec.distMat_symm 1 Y) (fun i => Spec.dist_self one_ne_zero _) i j)
  have hproj1 : uComplementaryProjectionB ⟨1, .numpy, fun _ _ => .fin 0⟩ (.fin 0) ⟨1, .numpy, fun _ _ => .fin 0⟩
      = .ok ⟨1, .numpy, fun _ _ => .fin 0⟩ := by
    unfold uComplementaryProjectionB uProjectionB
    rw [if_pos hzero]
    rw [Except.ok_bind']
    unfold FSq.zipWith
    simp only [dite_true]
    congr 2
    funext i j
    show FP.fin 0 - FP.fin 0 = FP.fin 0
    rw [FP.fin_sub, sub_zero]
  have hproj3 : uComplementaryProjectionB ⟨1, .numpy, fun _ _ => .fin 0⟩ (.fin 0) ⟨3, .numpy, fun _ _ => .fin 0⟩
      = .ok ⟨3, .numpy, fun _ _ => .fin 0⟩ := by
    unfold uComplementaryProjectionB uProjectionB
    rw [if_pos hzero]
    rw [Except.ok_bind']
    unfold FSq.zipWith
    simp only [show ¬ ((3 : ℕ) = 1) by norm_num, dite_false, dite_true]
    congr 2
    funext i j
    show FP.fin 0 - FP.fin 0 = FP.fin 0
    rw [FP.fin_sub, sub_zero]
  have hsum : ∀ m : ℕ, ∑ _ : Fin m, ∑ _ : Fin m, (FP.fin 0 * FP.fin 0 : FP ℝ) = .fin 0 := by
    intro m
    rw [FP.fin_mul, mul_zero]
    simp only [FP.fin_sum]
    simp
  constructor
  · unfold partialDistanceCovariance
    rw [uDistanceMatrix_numpy hx dx, uDistanceMatrix_numpy hy dy, uDistanceMatrix_numpy hz dz]
    simp only [PyM.pure_bind', uCentered_one, hYc]
    rw [uProductB_one, PyM.lift_ok_bind, hproj1, PyM.lift_ok_bind, hproj3, PyM.lift_ok_bind]
    show uProductB _ _ = _
    unfold uProductB FSq.zipWith
    simp only [show ¬ ((1 : ℕ) = 3) by norm_num, dite_false, dite_true]
    show npDiv .numpy (∑ _ : Fin 3, ∑ _ : Fin 3, FP.fin 0 * FP.fin 0) _ = _
    have h2 : ((((1 : ℕ) : ℤ) * (((1 : ℕ) : ℤ) - 3) : ℤ) : ℝ) = -2 := by norm_num
    rw [npDiv, if_neg (fun h => by cases h.1), h2, hsum, FP.fin_div _ (by norm_num)]
    norm_num
  · unfold partialDistanceCovariance
    rw [uDistanceMatrix_numpy hx dx, uDistanceMatrix_numpy hy dy, uDistanceMatrix_numpy hz dz]
    simp only [PyM.pure_bind', uCentered_one, hYc]
    rw [uProductB_one, PyM.lift_ok_bind, hproj3, PyM.lift_ok_bind, hproj1, PyM.lift_ok_bind]
    show uProductB _ _ = _
    unfold uProductB FSq.zipWith
    simp only [show ¬ ((3 : ℕ) = 1) by norm_num, dite_false, dite_true]
    show npDiv .numpy (∑ _ : Fin 3, ∑ _ : Fin 3, FP.fin 0 * FP.fin 0) _ = _
    have h2 : ((((3 : ℕ) : ℤ) * (((3 : ℕ) : ℤ) - 3) : ℤ) : ℝ) = 0 := by norm_num
    rw [npDiv, if_neg (fun h => by cases h.1), h2, hsum, zero_div_zero]

/-- Three observations of numbers and of points of the plane. -/
example (v w : Fin 3 → ℝ) (u : Fin 3 → Fin 2 → ℝ) := C123_nan_partial (env := stdEnv) (Or.inr (Or.inr rfl))
  (npVec_holds v) (npVec_holds w) (npMat_holds u) rfl rfl rfl

/-- Fractions in the second sample only. -/
example (v w : Fin 3 → ℝ) := C123_fraction_crashes (env := stdEnv) (y := ⟨.numpy, .fraction, .vec 3 w⟩) (npVec_holds v)
  (.vec 3 w) (npVec_holds v) (Or.inr (Or.inl rfl))
  (by simp [npVec]) (by simp) (by simp [npVec])

example (v : Fin 3 → ℝ) := C123_not_symmetric (env := stdEnv) (npVec_holds ![(0 : ℝ)]) (npVec_holds v) (npVec_holds ![(1 : ℝ)])
  rfl rfl rfl

end Dcor.Props

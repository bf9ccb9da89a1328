/-
Python / NumPy runtime vocabulary used by the model: exceptions, warnings,
IEEE-style exceptional values and checked array access.

Nothing in this file models a function of dcor; it fixes the meaning of the
Python and NumPy primitives that the dcor sources use.
-/
import Mathlib.Algebra.Order.Field.Basic
import Mathlib.Algebra.BigOperators.Fin
import Mathlib.Algebra.BigOperators.Group.Finset.Basic
import Mathlib.Order.Interval.Finset.Fin
import Mathlib.Data.Fintype.BigOperators
import Mathlib.Analysis.Real.Sqrt

namespace Dcor

/-- Exceptions that the modelled code can raise.  `undefinedBehaviour` is not a
Python exception: it marks an unchecked out-of-bounds read in compiled code. -/
inductive PyErr where
  | valueError
  | assertionError
  | notImplementedError
  | keyError
  | indexError
  | typeError
  | attributeError
  | unboundLocalError
  | zeroDivisionError
  | overflowError
  | undefinedBehaviour
  deriving DecidableEq, Repr

/-- Warnings (`warnings.warn`) that the modelled code can issue. -/
inductive Warn where
  /-- `_check_valid_dcov_exponent`, dcor/_dcor_internals.py:32-41 -/
  | dcovExponent
  /-- `_check_valid_energy_exponent`, dcor/_energy.py:66-75 -/
  | energyExponent
  /-- fallback warning, dcor/_fast_dcov_avl.py:554-560 -/
  | fallbackAvl
  /-- fallback warning, dcor/_fast_dcov_mergesort.py:413-419 -/
  | fallbackMergesort
  deriving DecidableEq, Repr

/-- A Python call: the warnings issued, then a value or an exception. -/
structure PyM (α : Type*) where
  warns : List Warn
  out : Except PyErr α

namespace PyM

/-- Normal return. -/
def pure {α : Type*} (a : α) : PyM α := ⟨[], .ok a⟩

/-- Sequencing; the first exception wins, warnings accumulate. -/
def bind {α β : Type*} (m : PyM α) (f : α → PyM β) : PyM β :=
  match m.out with
  | .ok a => ⟨m.warns ++ (f a).warns, (f a).out⟩
  | .error e => ⟨m.warns, .error e⟩

instance : Monad PyM where
  pure := PyM.pure
  bind := PyM.bind

/-- `raise e`. -/
def throw {α : Type*} (e : PyErr) : PyM α := ⟨[], .error e⟩

/-- `warnings.warn w`. -/
def warn (w : Warn) : PyM Unit := ⟨[w], .ok ()⟩

/-- Embed a computation that issues no warning. -/
def lift {α : Type*} (m : Except PyErr α) : PyM α := ⟨[], m⟩

end PyM

/-! ### Floating point special values

Arithmetic is exact (see DESIGN.md, "Trusted base"), but division by zero has the
IEEE / NumPy outcome: an infinity or NaN.  The sign of zero is not modelled (every
zero denominator in the code is a positive zero). -/

/-- A number, an infinity, or NaN. -/
inductive FP (K : Type*) where
  | fin (a : K)
  | pinf
  | ninf
  | nan

namespace FP

variable {K : Type*}

/-- IEEE addition. -/
protected def add [Add K] : FP K → FP K → FP K
  | fin a, fin b => fin (a + b)
  | nan, _ => nan
  | _, nan => nan
  | pinf, ninf => nan
  | ninf, pinf => nan
  | pinf, _ => pinf
  | _, pinf => pinf
  | ninf, _ => ninf
  | _, ninf => ninf

/-- IEEE negation. -/
protected def neg [Neg K] : FP K → FP K
  | fin a => fin (-a)
  | pinf => ninf
  | ninf => pinf
  | nan => nan

/-- An infinity with the sign of `a`; NaN if `a = 0`. -/
def infOfSign [Zero K] [LinearOrder K] (a : K) : FP K :=
  if a = 0 then nan else if 0 < a then pinf else ninf

/-- IEEE multiplication. -/
protected def mul [Mul K] [Zero K] [Neg K] [LinearOrder K] : FP K → FP K → FP K
  | fin a, fin b => fin (a * b)
  | nan, _ => nan
  | _, nan => nan
  | pinf, fin b => infOfSign b
  | fin a, pinf => infOfSign a
  | ninf, fin b => FP.neg (infOfSign b)
  | fin a, ninf => FP.neg (infOfSign a)
  | pinf, pinf => pinf
  | ninf, ninf => pinf
  | pinf, ninf => ninf
  | ninf, pinf => ninf

/-- IEEE division with (positive) zero. -/
protected def div [Div K] [Zero K] [Neg K] [LinearOrder K] : FP K → FP K → FP K
  | nan, _ => nan
  | _, nan => nan
  | fin a, fin b => if b = 0 then infOfSign a else fin (a / b)
  | fin _, _ => fin 0
  | pinf, fin b => if b < 0 then ninf else pinf
  | ninf, fin b => if b < 0 then pinf else ninf
  | _, _ => nan

instance [Zero K] : Zero (FP K) := ⟨fin 0⟩
instance [Add K] : Add (FP K) := ⟨FP.add⟩
instance [Neg K] : Neg (FP K) := ⟨FP.neg⟩
instance [Add K] [Neg K] : Sub (FP K) := ⟨fun a b => a + -b⟩
instance [Mul K] [Zero K] [Neg K] [LinearOrder K] : Mul (FP K) := ⟨FP.mul⟩
instance [Div K] [Zero K] [Neg K] [LinearOrder K] : Div (FP K) := ⟨FP.div⟩

/-- `a < b` (false as soon as NaN is involved). -/
def lt [LT K] : FP K → FP K → Prop
  | fin a, fin b => a < b
  | nan, _ => False
  | _, nan => False
  | ninf, ninf => False
  | ninf, _ => True
  | fin _, pinf => True
  | _, _ => False

section lemmas

@[simp] theorem fin_add [Add K] (a b : K) : (fin a + fin b : FP K) = fin (a + b) := rfl
@[simp] theorem neg_fin [Neg K] (a : K) : (-(fin a) : FP K) = fin (-a) := rfl
@[simp] theorem fin_mul [Mul K] [Zero K] [Neg K] [LinearOrder K] (a b : K) :
    (fin a * fin b : FP K) = fin (a * b) := rfl
@[simp] theorem fin_sub [AddGroup K] (a b : K) :
    (fin a - fin b : FP K) = fin (a - b) := by
  show fin (a + -b) = _
  rw [sub_eq_add_neg]

theorem fin_div' [Div K] [Zero K] [Neg K] [LinearOrder K] (a b : K) :
    (fin a / fin b : FP K) = if b = 0 then infOfSign a else fin (a / b) := rfl

theorem fin_div [Div K] [Zero K] [Neg K] [LinearOrder K] (a : K) {b : K} (h : b ≠ 0) :
    (fin a / fin b : FP K) = fin (a / b) := by
  rw [fin_div', if_neg h]

@[simp] theorem fin_inj {a b : K} : (fin a : FP K) = fin b ↔ a = b :=
  ⟨fun h => by cases h; rfl, fun h => by rw [h]⟩

theorem zero_def [Zero K] : (0 : FP K) = fin 0 := rfl

@[simp] theorem lt_fin [LT K] (a b : K) : lt (fin a) (fin b) ↔ a < b := Iff.rfl

instance [AddCommMonoid K] : AddCommMonoid (FP K) where
  add_assoc a b c := by
    cases a <;> cases b <;> cases c <;> first | rfl | exact congrArg fin (add_assoc _ _ _)
  zero_add a := by
    cases a <;> first | rfl | exact congrArg fin (zero_add _)
  add_zero a := by
    cases a <;> first | rfl | exact congrArg fin (add_zero _)
  add_comm a b := by
    cases a <;> cases b <;> first | rfl | exact congrArg fin (add_comm _ _)
  nsmul := nsmulRec

theorem fin_sum [AddCommMonoid K] {ι : Type*} (s : Finset ι) (f : ι → K) :
    (∑ i ∈ s, (fin (f i) : FP K)) = fin (∑ i ∈ s, f i) := by
  classical
  induction s using Finset.induction_on with
  | empty => rfl
  | insert a s ha ih => rw [Finset.sum_insert ha, Finset.sum_insert ha, ih, fin_add]

theorem nan_add [Add K] (a : FP K) : (nan + a : FP K) = nan := by cases a <;> rfl
theorem add_nan [Add K] (a : FP K) : (a + nan : FP K) = nan := by cases a <;> rfl
theorem nan_sub [AddGroup K] (a : FP K) : (nan - a : FP K) = nan := nan_add _
theorem sub_nan [AddGroup K] (a : FP K) : (a - nan : FP K) = nan := add_nan _
theorem nan_div [Div K] [Zero K] [Neg K] [LinearOrder K] (a : FP K) :
    (nan / a : FP K) = nan := by cases a <;> rfl
theorem div_nan [Div K] [Zero K] [Neg K] [LinearOrder K] (a : FP K) :
    (a / nan : FP K) = nan := by cases a <;> rfl
theorem nan_mul [Mul K] [Zero K] [Neg K] [LinearOrder K] (a : FP K) :
    (nan * a : FP K) = nan := by cases a <;> rfl
theorem mul_nan [Mul K] [Zero K] [Neg K] [LinearOrder K] (a : FP K) :
    (a * nan : FP K) = nan := by cases a <;> rfl

end lemmas

/-- `np.sqrt`: NaN for negative arguments. -/
noncomputable def npSqrt : FP ℝ → FP ℝ
  | fin a => if a < 0 then nan else fin (Real.sqrt a)
  | pinf => pinf
  | ninf => nan
  | nan => nan

/-- `abs`. -/
noncomputable def abs : FP ℝ → FP ℝ
  | fin a => fin |a|
  | pinf => pinf
  | ninf => pinf
  | nan => nan

end FP

/-! ### Arrays

A one-dimensional NumPy array of length `n` is a function `Fin n → α`.  Element access
in explicit loops is checked: an index outside `0 … n-1` is an error. -/

/-- Checked read `a[i]`. -/
def rd {α : Type*} {n : ℕ} (a : Fin n → α) (i : ℤ) : Except PyErr α :=
  if h : 0 ≤ i ∧ i < n then .ok (a ⟨i.toNat, by omega⟩) else .error .indexError

/-- Checked write `a[i] = v`. -/
def wr {α : Type*} {n : ℕ} (a : Fin n → α) (i : ℤ) (v : α) : Except PyErr (Fin n → α) :=
  if h : 0 ≤ i ∧ i < n then .ok (Function.update a ⟨i.toNat, by omega⟩ v)
  else .error .indexError

/-- Vectorised scatter `a[idx] = vals` (NumPy assigns in order, the last one wins). -/
def scatter {α : Type*} {n m : ℕ} (a : Fin n → α) (idx : Fin m → Fin n) (vals : Fin m → α) :
    Fin n → α :=
  (List.finRange m).foldl (fun b k => Function.update b (idx k) (vals k)) a

/-- `np.cumsum`. -/
def cumsum {R : Type*} [AddCommMonoid R] {n : ℕ} (v : Fin n → R) : Fin n → R :=
  fun i => ∑ j ∈ Finset.Iic i, v j

end Dcor

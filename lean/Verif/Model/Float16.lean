/-
The AVL method, not compiled, on NumPy arrays of dtype `float16`, with overflow and underflow.

As for `float32` (`Float32.lean`), the compiled version does not accept these arrays, so this is the version that runs
(dcor/_fast_dcov_avl.py:543-560); its arrays have the dtype of the samples, and what is multiplied by the `int64` index arrays
is `float64`. NumPy 2 promotion rules are assumed: a Python integer takes the dtype of the array or scalar it is combined with,
and is infinite if it is too large. The numbers are a subset of those of `float64`, so that the type is `F64`.
-/
import Verif.Model.Float32
import Verif.Model.Float64

namespace Dcor

/-- The positive number `p / d` rounded to 11 significant bits (see `roundPos`). -/
def roundPos11 (p d : ℕ) : ℚ :=
  let k0 : ℤ := 10 - ((Nat.log2 p : ℤ) - (Nat.log2 d : ℤ))
  let k := if scaleNum p k0 < 2 ^ 10 * scaleDen d k0 then k0 + 1 else k0
  let m := divEven (scaleNum p k) (scaleDen d k)
  if 0 ≤ k then mkRat m (2 ^ k.toNat) else mkRat (m * 2 ^ (-k).toNat) 1

/-- Rounding to 11 bits, to nearest, ties to even, with exponents of any size. -/
def round11 (q : ℚ) : ℚ :=
  if q.num = 0 then 0 else if q.num < 0 then -roundPos11 q.num.natAbs q.den else roundPos11 q.num.natAbs q.den

namespace F16

open F64

/-- Rounding to a multiple of `2 ^ -24`, ties to even: gradual underflow. -/
def roundTiny (q : ℚ) : ℚ :=
  if q < 0 then -mkRat (divEven (q.num.natAbs * 2 ^ 24) q.den) (2 ^ 24) else mkRat (divEven (q.num.natAbs * 2 ^ 24) q.den) (2 ^ 24)

/-- Rounding of the IEEE 754 binary16 format: numbers below `2 ^ -14` are rounded to a multiple of `2 ^ -24`, the others to 11
bits, and what is then at least `2 ^ 16` is infinite. -/
def round (q : ℚ) : F64 :=
  let r := if |q| < 1 / 2 ^ 14 then roundTiny q else round11 q
  if 2 ^ 16 ≤ |r| then inf (decide (r < 0)) else fin r

/-- Conversion of a `float32` or `float64` number to `float16`. -/
def cast : F64 → F64
  | fin q => round q
  | a => a

/-- Addition. -/
def add : F64 → F64 → F64
  | fin a, fin b => round (a + b)
  | a, b => F64.add a b

/-- Subtraction. -/
def sub (a b : F64) : F64 := add a (neg b)

/-- Multiplication. -/
def mul : F64 → F64 → F64
  | fin a, fin b => round (a * b)
  | a, b => F64.mul a b

/-- Division. -/
def div : F64 → F64 → F64
  | fin a, fin b => if b = 0 then F64.div (fin a) (fin b) else round (a / b)
  | a, b => F64.div a b

/-- Addition of `float32` numbers. Sums of fewer than `2 ^ 111` numbers of dtype `float16` are in the range of `float32`, and are
multiples of its smallest number. -/
def add32 : F64 → F64 → F64
  | fin a, fin b => fin (round32 (a + b))
  | a, b => F64.add a b

/-- `r` is an intermediate result of `np.sum`: NumPy adds `float16` numbers in `float32`, in some order (see `SumsTo`), and may
convert what it has to `float16` in between. -/
inductive Acc : List F64 → F64 → Prop
  | nil : Acc [] (fin 0)
  | single (a : F64) : Acc [a] a
  | add {l l' : List F64} {a b : F64} (hl : l ≠ []) (hl' : l' ≠ []) : Acc l a → Acc l' b → Acc (l ++ l') (add32 a b)
  | cast {l : List F64} {a : F64} : Acc l a → Acc l (cast a)
  | perm {l l' : List F64} {a : F64} : Acc l a → l.Perm l' → Acc l' a

/-- What is assumed of `np.sum` of `float16` numbers. -/
def IsSum (sum : List F64 → F64) : Prop := ∀ l, ∃ r, Acc l r ∧ sum l = cast r

/-- Sum from left to right. -/
def sumSeq : List F64 → F64
  | [] => fin 0
  | a :: l => cast (l.foldl add32 a)

end F16

/-- `float16` arithmetic, given the way in which vectors are summed. Square roots and `@` are not used with `float16` numbers. -/
def ieee16 (sum : List F64 → F64) : Arith F64 where
  ofInt k := F16.round k
  add := F16.add
  sub := F16.sub
  mul := F16.mul
  div := F16.div
  sum := sum
  dot := fun _ => .nan
  sqrt := id
  abs := F64.abs
  lt := F64.lt
  eq := F64.eq

namespace Arith

variable (S D : Arith F64) {n : ℕ}

/-- `2 * n**2 * np.var(x)`, dcor/_fast_dcov_avl.py:410-411. `np.var` divides by an `int64` number of observations, in `float64`,
and converts the quotients to `float16`. -/
def varTermHalf (x : Fin n → F64) : F64 :=
  let mean := F16.cast (D.idiv (S.vsum x) n)
  let d := fun i => S.sub (x i) mean
  S.imul (2 * (n : ℤ) ^ 2) (F16.cast (D.idiv (S.vsum fun i => S.mul (d i) (d i)) n))

/-- `_DcovAlgorithmInternals.stats_sqr`, dcor/_dcor.py:241-313, of the AVL method on `float16` arrays: as `avlStatsSingle`, with
another variance term. -/
def avlStatsHalf (biasCorrected : Bool) (argsort : (Fin n → F64) → Equiv.Perm (Fin n)) (x y : Fin n → F64) :
    Except PyErr (StatsSqr F64) := do
  let t ← avlTermsSingle S D argsort x y
  let cov := fromTermsSingle S D biasCorrected t.meanProd t.aAxis t.aTotal t.bAxis t.bTotal
  let varX := fromTermsSingle S D biasCorrected (varTermHalf S D x) t.aAxis t.aTotal t.aAxis t.aTotal
  let varY := fromTermsSingle S D biasCorrected (varTermHalf S D y) t.bAxis t.bTotal t.bAxis t.bTotal
  let denominator := D.sqrtClip (D.abs (D.mul varX varY))
  let corr := if D.eqZero denominator then D.ofInt 0 else D.div cov denominator
  pure { cov := cov, corr := corr, varX := varX, varY := varY }

end Arith

end Dcor

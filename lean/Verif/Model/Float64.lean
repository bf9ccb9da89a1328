/-
`float64` with its range: overflow to infinity, gradual underflow, infinities and NaN.

`Verif/Model/Rounding.lean` has the operations of the three methods and `round64`, which rounds to 53 bits without
limits for the exponent. Here the same operations are executed with the IEEE 754 binary64 numbers, except that there
is one zero and one NaN. The sign of a zero is only seen by a division by zero; the code excludes it everywhere but in
the t statistic (dcor/independence.py:289), whose denominator is `+0.0` if it is zero: `1 - 1` and `np.clip` with the bound
0 give `+0.0`, and in the row-wise correlations (dcor/_rowwise.py:76), where a variance below zero is replaced by `+0.0`.
-/
import Verif.Model.RoundingEnergy
import Verif.Proofs.Sqrt64

namespace Dcor

/-- IEEE 754 binary64 numbers. -/
inductive F64 where
  | nan
  | inf (neg : Bool)
  | fin (q : ℚ)
  deriving DecidableEq

namespace F64

/-- Rounding to a multiple of `2 ^ -1074`, ties to even: gradual underflow. -/
def roundTiny (q : ℚ) : ℚ :=
  if q < 0 then -mkRat (divEven (q.num.natAbs * 2 ^ 1074) q.den) (2 ^ 1074)
  else mkRat (divEven (q.num.natAbs * 2 ^ 1074) q.den) (2 ^ 1074)

/-- Rounding of an exact result: numbers below `2 ^ -1022` are rounded to a multiple of `2 ^ -1074`, the others to 53
bits, and what is then at least `2 ^ 1024` is infinite. -/
def round (q : ℚ) : F64 :=
  let r := if |q| < 1 / 2 ^ 1022 then roundTiny q else round64 q
  if 2 ^ 1024 ≤ |r| then inf (decide (r < 0)) else fin r

/-- Addition. -/
def add : F64 → F64 → F64
  | nan, _ => nan
  | _, nan => nan
  | inf s, inf t => if s = t then inf s else nan
  | inf s, fin _ => inf s
  | fin _, inf t => inf t
  | fin a, fin b => round (a + b)

/-- Change of sign. -/
def neg : F64 → F64
  | nan => nan
  | inf s => inf (!s)
  | fin q => fin (-q)

/-- Subtraction. -/
def sub (a b : F64) : F64 := add a (neg b)

/-- Multiplication. -/
def mul : F64 → F64 → F64
  | nan, _ => nan
  | _, nan => nan
  | inf s, inf t => inf (s != t)
  | inf s, fin b => if b = 0 then nan else inf (s != decide (b < 0))
  | fin a, inf t => if a = 0 then nan else inf (decide (a < 0) != t)
  | fin a, fin b => round (a * b)

/-- `a * b + c` with one rounding. -/
def fma : F64 → F64 → F64 → F64
  | fin a, fin b, fin c => round (a * b + c)
  | fin _, fin _, inf s => inf s
  | a, b, c => add (mul a b) c

/-- Division. The sign of a zero divisor is that of `+0.0`. -/
def div : F64 → F64 → F64
  | nan, _ => nan
  | _, nan => nan
  | inf _, inf _ => nan
  | inf s, fin b => inf (s != decide (b < 0))
  | fin _, inf _ => fin 0
  | fin a, fin b => if b = 0 then if a = 0 then nan else inf (decide (a < 0)) else round (a / b)

/-- Absolute value. -/
def abs : F64 → F64
  | nan => nan
  | inf _ => inf false
  | fin q => fin |q|

/-- `a < b`. -/
def lt : F64 → F64 → Bool
  | nan, _ => false
  | _, nan => false
  | inf s, inf t => s && !t
  | inf s, fin _ => s
  | fin _, inf t => !t
  | fin a, fin b => decide (a < b)

/-- `a == b`. -/
def eq : F64 → F64 → Bool
  | nan, _ => false
  | _, nan => false
  | inf s, inf t => s == t
  | inf _, fin _ => false
  | fin _, inf _ => false
  | fin a, fin b => decide (a = b)

/-- `np.sqrt`: `r` is the correctly rounded square root of `a`. -/
def IsSqrt : F64 → F64 → Prop
  | nan, r => r = nan
  | inf s, r => r = if s then nan else inf false
  | fin q, r => if q < 0 then r = nan else ∃ s, SqrtTo q s ∧ r = fin s

/-- Sums in some order with some parenthesisation (see `SumsTo`). -/
inductive Sums : List F64 → F64 → Prop
  | nil : Sums [] (fin 0)
  | single (a : F64) : Sums [a] a
  | add {l l' : List F64} {a b : F64} (hl : l ≠ []) (hl' : l' ≠ []) : Sums l a → Sums l' b → Sums (l ++ l') (add a b)
  | perm {l l' : List F64} {a : F64} : Sums l a → l.Perm l' → Sums l' a

/-- Scalar products in some order, with or without fused operations (see `DotsTo`). -/
inductive Dots : List (F64 × F64) → F64 → Prop
  | nil : Dots [] (fin 0)
  | single (a b : F64) : Dots [(a, b)] (mul a b)
  | fma (a b : F64) {l : List (F64 × F64)} {c : F64} (hl : l ≠ []) : Dots l c → Dots ((a, b) :: l) (fma a b c)
  | add {l l' : List (F64 × F64)} {a b : F64} (hl : l ≠ []) (hl' : l' ≠ []) :
      Dots l a → Dots l' b → Dots (l ++ l') (add a b)
  | perm {l l' : List (F64 × F64)} {a : F64} : Dots l a → l.Perm l' → Dots l' a

end F64

/-- `float64` arithmetic, given the square root and the ways in which vectors are summed and multiplied. -/
def ieee64 (sqrt : F64 → F64) (sum : List F64 → F64) (dot : List (F64 × F64) → F64) : Arith F64 where
  ofInt k := F64.round k
  add := F64.add
  sub := F64.sub
  mul := F64.mul
  div := F64.div
  sum := sum
  dot := dot
  sqrt := sqrt
  abs := F64.abs
  lt := F64.lt
  eq := F64.eq

/-- What is assumed of `np.sqrt`, `np.sum` and `@`. -/
structure IsIeee64 (sqrt : F64 → F64) (sum : List F64 → F64) (dot : List (F64 × F64) → F64) : Prop where
  sqrt : ∀ a, F64.IsSqrt a (sqrt a)
  sum : ∀ l, F64.Sums l (sum l)
  dot : ∀ l, F64.Dots l (dot l)

namespace F64

/-- Square root. -/
def sqrtSeq : F64 → F64
  | nan => nan
  | inf s => if s then nan else inf false
  | fin q => if q < 0 then nan else fin (sqrt64 q)

/-- Sum from left to right. -/
def sumSeq : List F64 → F64
  | [] => fin 0
  | a :: l => l.foldl add a

/-- Scalar product from left to right, with rounded products. -/
def dotSeq (l : List (F64 × F64)) : F64 := sumSeq (l.map fun p => mul p.1 p.2)

end F64

end Dcor

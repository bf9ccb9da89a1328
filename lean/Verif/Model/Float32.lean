/-
The AVL method, not compiled, on NumPy arrays of dtype `float32`.

The compiled version only accepts `float64` arrays, so this is the version that runs for such samples
(dcor/_fast_dcov_avl.py:543-560). Its arrays have the dtype of the samples; what is multiplied by the `int64` index arrays is
`float64`. NumPy 2 promotion rules are assumed: a Python integer takes the dtype of the array or scalar it is combined with.
As in `binary64`, overflow and underflow are not modelled.
-/
import Verif.Model.Rounding
import Verif.Model.RoundingRowwise

namespace Dcor

/-- The positive number `p / d` rounded to 24 significant bits (see `roundPos`). -/
def roundPos32 (p d : ℕ) : ℚ :=
  let k0 : ℤ := 23 - ((Nat.log2 p : ℤ) - (Nat.log2 d : ℤ))
  let k := if scaleNum p k0 < 2 ^ 23 * scaleDen d k0 then k0 + 1 else k0
  let m := divEven (scaleNum p k) (scaleDen d k)
  if 0 ≤ k then mkRat m (2 ^ k.toNat) else mkRat (m * 2 ^ (-k).toNat) 1

/-- Rounding of the IEEE 754 binary32 format: to nearest, ties to even, 24 bits of precision, with exponents of any size. -/
def round32 (q : ℚ) : ℚ :=
  if q.num = 0 then 0 else if q.num < 0 then -roundPos32 q.num.natAbs q.den else roundPos32 q.num.natAbs q.den

/-- `r` is a sum of the elements of the list in `float32`, in some order (see `SumsTo`). -/
inductive SumsTo32 : List ℚ → ℚ → Prop
  | nil : SumsTo32 [] 0
  | single (a : ℚ) : SumsTo32 [a] a
  | add {l l' : List ℚ} {a b : ℚ} (hl : l ≠ []) (hl' : l' ≠ []) :
      SumsTo32 l a → SumsTo32 l' b → SumsTo32 (l ++ l') (round32 (a + b))
  | perm {l l' : List ℚ} {a : ℚ} : SumsTo32 l a → l.Perm l' → SumsTo32 l' a

/-- `float32` arithmetic on finite numbers, given the way in which vectors are summed. Square roots and `@` are not used
with `float32` numbers by the functions below. -/
def binary32 (sum : List ℚ → ℚ) : Arith ℚ where
  ofInt k := round32 k
  add a b := round32 (a + b)
  sub a b := round32 (a - b)
  mul a b := round32 (a * b)
  div a b := round32 (a / b)
  sum := sum
  dot := fun _ => 0
  sqrt := id
  abs a := |a|
  lt a b := decide (a < b)
  eq a b := decide (a = b)

/-- Sum of `float32` numbers from left to right: `np.sum` of fewer than eight elements. -/
def seqSum32 : List ℚ → ℚ
  | [] => 0
  | a :: l => l.foldl (fun s b => round32 (s + b)) a

namespace Arith

variable {R : Type} (S D : Arith R) {n : ℕ}

/-- `a_i_dot`, dcor/_fast_dcov_avl.py:357-371: `np.sum` and `np.cumsum` are single precision (`S`), what is multiplied by the
index array `ix` is double precision (`D`). -/
def axisSingle (argsort : Equiv.Perm (Fin n)) (x : Fin n → R) (i : Fin n) : R :=
  let vx := fun i => x (argsort i)
  let ix := scatter (fun i : Fin n => ⟨0, i.pos⟩) argsort id
  let beta := fun i => S.sub (S.cumsum vx (ix i)) (vx (ix i))
  D.sub (D.add (S.vsum x) (D.imul (2 * ((ix i : ℕ) : ℤ) - n) (x i))) (S.imul 2 (beta i))

/-- `a_dot_dot`, dcor/_fast_dcov_avl.py:373-375. -/
def totalSingle (argsort : Equiv.Perm (Fin n)) (x : Fin n → R) : R :=
  let vx := fun i => x (argsort i)
  let ix := scatter (fun i : Fin n => ⟨0, i.pos⟩) argsort id
  let beta := fun i => S.sub (S.cumsum vx (ix i)) (vx (ix i))
  D.sub (D.imul 2 (D.vsum fun i => D.imul ((ix i : ℕ) : ℤ) (x i))) (S.imul 2 (S.vsum beta))

/-- `_distance_covariance_sqr_terms_avl_impl`, dcor/_fast_dcov_avl.py:202-414, without the variance terms, on single precision
arrays: the partial sums and the sum of products are single precision numbers, the row sums double precision. -/
def avlTermsSingle (argsort : (Fin n → R) → Equiv.Perm (Fin n)) (x y : Fin n → R) : Except PyErr (CoreTerms R n) := do
  let t ← S.avlTerms false argsort x y
  pure { meanProd := t.meanProd
         aAxis := axisSingle S D (argsort x) x
         aTotal := totalSingle S D (argsort x) x
         bAxis := axisSingle S D (argsort y) y
         bTotal := totalSingle S D (argsort y) y }

/-- `_dcov_from_terms`, dcor/_dcor_internals.py:176-199, with a single precision `mean_prod` and double precision sums. -/
def fromTermsSingle (biasCorrected : Bool) (meanProd : R) (aAxis : Fin n → R) (aTotal : R) (bAxis : Fin n → R)
    (bTotal : R) : R :=
  let m : ℤ := n
  let first := S.idiv meanProd m
  let second := D.vdot (fun i => D.idiv (aAxis i) m) bAxis
  let third := D.mul (D.idiv aTotal m) bTotal
  let first := S.idiv first (if biasCorrected then m - 3 else m)
  let second := D.idiv second (if biasCorrected then (m - 2) * (m - 3) else m ^ 2)
  let third := D.idiv third (if biasCorrected then (m - 1) * (m - 2) * (m - 3) else m ^ 3)
  D.add (D.sub first (D.imul 2 second)) third

/-- `_DcovAlgorithmInternals.stats_sqr`, dcor/_dcor.py:241-313, of the AVL method on single precision arrays. `np.var` is
single precision. -/
def avlStatsSingle (biasCorrected : Bool) (argsort : (Fin n → R) → Equiv.Perm (Fin n)) (x y : Fin n → R) :
    Except PyErr (StatsSqr R) := do
  let t ← avlTermsSingle S D argsort x y
  let cov := fromTermsSingle S D biasCorrected t.meanProd t.aAxis t.aTotal t.bAxis t.bTotal
  let varX := fromTermsSingle S D biasCorrected (S.varTerm x) t.aAxis t.aTotal t.aAxis t.aTotal
  let varY := fromTermsSingle S D biasCorrected (S.varTerm y) t.bAxis t.bTotal t.bAxis t.bTotal
  let denominator := D.sqrtClip (D.abs (D.mul varX varY))
  let corr := if D.eqZero denominator then D.ofInt 0 else D.div cov denominator
  pure { cov := cov, corr := corr, varX := varX, varY := varY }

/-- One entry of the row-wise covariance of two arrays of dtype `float32`, dcor/_fast_dcov_avl.py:563-641. The generalised
universal function has only a `float64` loop (575-587): NumPy converts the rows, which is exact, and converts (`store`) the
result to the dtype of `res`, that of `x` (632). -/
def rowCovarianceSingle (store : R → R) (unbiased : Bool) (argsort : (Fin n → R) → Equiv.Perm (Fin n)) (x y : Fin n → R) :
    Except PyErr R := do
  let r ← D.rowCovariance unbiased argsort x y
  pure (store r)

end Arith

end Dcor

/-
Model of the test of independence for high dimension with an arbitrary arithmetic.
-/
import Verif.Model.Rounding

namespace Dcor

namespace Arith

variable {R : Type} (A : Arith R)

/-- `v - 1` with `v = n * (n - 3) / 2`, dcor/independence.py:286-289 and 343-345. The product is an exact Python
integer; its true division by 2 is correctly rounded, which is the same as the division of the rounded product. -/
def tDegrees (n : ℕ) : R := A.sub (A.idiv (A.ofInt ((n : ℤ) * ((n : ℤ) - 3))) 2) (A.ofInt 1)

/-- The statistic as a function of the number of observations and of `bcdcor`, dcor/independence.py:286-289.
`bcdcor**2` is rounded once, as a product. -/
def tStatistic (n : ℕ) (bcdcor : R) : R :=
  A.div (A.mul (A.sqrt (A.tDegrees n)) bcdcor) (A.sqrtClip (A.sub (A.ofInt 1) (A.mul bcdcor bcdcor)))

/-- The p-value, dcor/independence.py:341-347, for any function `cdf t df` in place of `scipy.stats.t.cdf`. -/
def tPvalue (cdf : R → R → R) (n : ℕ) (bcdcor : R) : R :=
  A.sub (A.ofInt 1) (cdf (A.tStatistic n bcdcor) (A.tDegrees n))

end Arith

end Dcor

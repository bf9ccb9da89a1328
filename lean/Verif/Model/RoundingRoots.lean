/-
Model of the statistics that are not squared, with an arbitrary arithmetic.
-/
import Verif.Model.Rounding

namespace Dcor.Arith

variable {R : Type} (A : Arith R)

/-- `distance_stats`, dcor/_dcor.py:844-857; its first two components are `distance_covariance`, dcor/_dcor.py:611-619, and
`distance_correlation`, dcor/_dcor.py:1032-1040. The argument is the result of `distance_stats_sqr`. -/
def rootStats (s : StatsSqr R) : StatsSqr R :=
  { cov := A.sqrtClip s.cov, corr := A.sqrtClip s.corr, varX := A.sqrtClip s.varX, varY := A.sqrtClip s.varY }

end Dcor.Arith

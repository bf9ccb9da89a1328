/-
Model of the energy distance and of the statistic of its test with an arbitrary arithmetic.
-/
import Verif.Model.Rounding
import Verif.Model.Energy

namespace Dcor.Arith

variable {R : Type} (A : Arith R) {n m p : ℕ}

/-- `scipy.spatial.distance.cdist(x, y, metric='euclidean')`, dcor/distances.py:42-76, with exponent 1: the square
root of the sum of the squared differences. -/
def cdist (x : Fin n → Fin p → R) (y : Fin m → Fin p → R) (i : Fin n) (j : Fin m) : R :=
  A.sqrt (A.vsum fun k => A.mul (A.sub (x i k) (y j k)) (A.sub (x i k) (y j k)))

/-- Entries of a matrix in row-major order. `np.mean` and `np.sum` of a matrix add all of them, in an order that is left
to `A.sum`. -/
def flatAll (d : Fin n → Fin m → R) : List R :=
  (List.finRange n).flatMap fun i => (List.finRange m).map (d i)

/-- `_get_flat_upper_matrix` with `k = 1`, dcor/_energy.py:78-85. -/
def flatUpper (d : Fin n → Fin n → R) : List R :=
  (List.finRange n).flatMap fun (i : Fin n) =>
    ((List.finRange n).filter fun (j : Fin n) => decide ((i : ℕ) + 1 ≤ (j : ℕ))).map (d i)

/-- `np.mean` of a nonempty array: the sum divided by the number of elements. -/
def mean (l : List R) : R := A.idiv (A.sum l) l.length

/-- `_energy_distance_from_distance_matrices`, dcor/_energy.py:88-131, with the default average. -/
def energyFromMatrices (s : EstStat) (dxx : Fin n → Fin n → R) (dyy : Fin m → Fin m → R) (dxy : Fin n → Fin m → R) : R :=
  let xx := match s with
    | .u => flatUpper dxx
    | .v => flatAll dxx
  let yy := match s with
    | .u => flatUpper dyy
    | .v => flatAll dyy
  A.sub (A.sub (A.imul 2 (A.mean (flatAll dxy))) (A.mean xx)) (A.mean yy)

/-- `energy_distance` with exponent 1 and the default average, dcor/_energy.py:131-209. -/
def energyDistance (s : EstStat) (x : Fin n → Fin p → R) (y : Fin m → Fin p → R) : R :=
  A.energyFromMatrices s (A.cdist x x) (A.cdist y y) (A.cdist x y)

/-- `energy_test_statistic` with exponent 1 and the default average, dcor/homogeneity.py:28-33 and 57-125. The coefficient
`n * m / (n + m)` is a quotient of Python integers, which is correctly rounded; here the integers are converted to `R`
first, which is the same below `2 ** 53`. -/
def energyTestStatistic (s : EstStat) (x : Fin n → Fin p → R) (y : Fin m → Fin p → R) : R :=
  A.mul (A.div (A.ofInt ((n : ℤ) * m)) (A.ofInt ((n : ℤ) + m))) (A.energyDistance s x y)

end Dcor.Arith

/-
The naive method and the energy distance on NumPy arrays of unsigned integers.

`_can_be_numpy_double` is false for unsigned integers, so their distances are those of `cdistNaiveUnsigned` (`IntWrap.lean`), which
are `float64` numbers; from there on the functions are the same as for other samples. Rounding is not modelled.
-/
import Verif.Model.IntWrap
import Verif.Model.Energy

namespace Dcor

variable {n m p q w w' : ℕ}

/-- `energy_distance`, dcor/_energy.py:191-209, on two matrices of unsigned integers with the same number of columns. The third matrix
of distances has a row for each observation of `y` (dcor/distances.py:30-33). The warning of line 193 is left out. -/
noncomputable def energyDistanceUnsigned (env : Env) (x : Fin n → Fin p → BitVec w) (y : Fin m → Fin p → BitVec w) (o : EnergyOpts) :
    Except PyErr Scalar :=
  energyFromMatrices env ⟨⟨n, n, pairwiseDistancesUnsigned x o.exponent⟩, false⟩ ⟨⟨m, m, pairwiseDistancesUnsigned y o.exponent⟩, false⟩
    ⟨⟨m, n, cdistNaiveUnsigned x y o.exponent⟩, false⟩ o.average o.stat

/-- `_dcov_terms_naive`, dcor/_dcor_internals.py:130-173, without the variance terms, on two matrices of unsigned integers, which may have
different dtypes. -/
noncomputable def naiveTermsUnsigned (x : Fin n → Fin p → BitVec w) (y : Fin n → Fin q → BitVec w') (exponent : ℝ) : CoreTerms ℝ n :=
  let a := pairwiseDistancesUnsigned x exponent
  let b := pairwiseDistancesUnsigned y exponent
  { meanProd := ∑ i, ∑ j, a i j * b i j
    aAxis := fun i => ∑ j, a i j
    aTotal := ∑ i, ∑ j, a i j
    bAxis := fun i => ∑ j, b i j
    bTotal := ∑ i, ∑ j, b i j }

/-- `_DcovAlgorithmInternals.stats_sqr`, dcor/_dcor.py:240-313, of the naive method on two matrices of unsigned integers. The variance
terms are the squares of the distances (dcor/_dcor_internals.py:165-170). -/
noncomputable def statsSqrNaiveUnsigned (x : Fin n → Fin p → BitVec w) (y : Fin n → Fin q → BitVec w') (exponent : ℝ)
    (biasCorrected : Bool) : Except PyErr Stats := do
  let c := naiveTermsUnsigned x y exponent
  let va := ∑ i, ∑ j, pairwiseDistancesUnsigned x exponent i j * pairwiseDistancesUnsigned x exponent i j
  let vb := ∑ i, ∑ j, pairwiseDistancesUnsigned y exponent i j * pairwiseDistancesUnsigned y exponent i j
  let cov ← dcovFromTerms .numpy .numpy .numpy c.meanProd c.aAxis c.aTotal c.bAxis c.bTotal biasCorrected
  let vx ← dcovFromTerms .numpy .numpy .numpy va c.aAxis c.aTotal c.aAxis c.aTotal biasCorrected
  let vy ← dcovFromTerms .numpy .numpy .numpy vb c.bAxis c.bTotal c.bAxis c.bTotal biasCorrected
  let denominator := sqrtClip (FP.abs (vx * vy))
  let corr := if denominator.IsZero then .fin 0 else cov / denominator
  pure ⟨cov, corr, vx, vy⟩

end Dcor

/-
Memory effects of the library, for property C53.

Every function is described by the arrays it creates, the views it takes and the stores it performs;
the values stored are arbitrary, conditions are replaced by non-deterministic choices and loops by an
arbitrary number of iterations, and an exception can be raised at any point. Every statement of the
library that stores into an array is included; statements that only create arrays from others are
included when their result is used by a store or returned. Functions supplied by the user (`average`,
the function given to `rowwise`) are assumed not to store into arrays, and the state of random
generators is not memory in this sense. Python numbers and NumPy scalars, which are immutable, are
treated as arrays.
-/
import Mathlib.Data.Set.Basic
import Verif.Model.Heap

namespace Dcor.Effects

/-- Variables of the functions. -/
inductive Var where
  -- arguments
  | x | y | z
  -- arguments of internal functions
  | x0 | y0 | xImpl | yImpl | xRow | yRow | xSample | ySample | matrix | perm
  -- `_sqrt`
  | xSum | xCopy
  -- distances
  | sqNorms | distances | powers | a | b | c | aVec | bVec
  -- terms
  | meanProd | aSum | aTotal | bSum | bTotal | aVar | bVar | first | second | third
  -- AVL
  | temp | argsort | vx | vy | ix | iy | yReord | iyReord | cMat | cReord | cReordElem | sxC | syC
  | s | posSums | gamma | gammaI | positions3a | positions3b
  -- mergesort
  | weights | weightSums | indexes | previous | current | weightsCumsum | bI
  -- results
  | cov | varX | varY | denominator | out | centred | uX | uY | uZ | proj | statistic | energy
  | pairwiseEnergy | sampleIndexes | pooled | res | corr | concatX | concatY | eigenvalues
  | eigenvectors | covMat | rowResult | result
  deriving DecidableEq

/-- Statements. -/
inductive Cmd where
  | skip
  /-- `r = <new array>` -/
  | alloc (r : Var)
  /-- `r = <s, or a view of a part of the memory of s>` -/
  | view (r s : Var)
  /-- `r[...] = ...`, `r += ...`, … -/
  | store (r : Var)
  | seq (c d : Cmd)
  /-- Branching on a condition that is not modelled. -/
  | choice (c d : Cmd)
  /-- Any number of iterations. -/
  | loop (c : Cmd)
  /-- `try: c except: pass` -/
  | attempt (c : Cmd)

infixr:60 " ;; " => Cmd.seq

/-- Memory and, for every variable, the cells that can be reached through it. -/
structure State where
  heap : Heap
  reach : Var → Set ℕ

/-- Did the statement finish, or raise an exception? -/
inductive Outcome where
  | done
  | raised

/-- Execution of a statement. -/
inductive Exec : Cmd → State → Outcome → State → Prop
  | raise (c : Cmd) (σ : State) : Exec c σ .raised σ
  | skip (σ : State) : Exec .skip σ .done σ
  | alloc (r : Var) (σ : State) (h : Heap) (S : Set ℕ) (hn : σ.heap.next ≤ h.next)
      (hc : ∀ k, k < σ.heap.next → h.cell k = σ.heap.cell k)
      (hS : ∀ k ∈ S, σ.heap.next ≤ k ∧ k < h.next) :
      Exec (.alloc r) σ .done ⟨h, fun v => if v = r then S else σ.reach v⟩
  | view (r s : Var) (σ : State) (S : Set ℕ) (hS : S ⊆ σ.reach s) :
      Exec (.view r s) σ .done ⟨σ.heap, fun v => if v = r then S else σ.reach v⟩
  | store (r : Var) (σ : State) (h : Heap) (o : Outcome) (hn : h.next = σ.heap.next)
      (hc : ∀ k, k ∉ σ.reach r → h.cell k = σ.heap.cell k) :
      Exec (.store r) σ o ⟨h, σ.reach⟩
  | seq {c d : Cmd} {σ τ υ : State} {o : Outcome} (h₁ : Exec c σ .done τ) (h₂ : Exec d τ o υ) :
      Exec (.seq c d) σ o υ
  | seqRaise {c d : Cmd} {σ τ : State} (h₁ : Exec c σ .raised τ) : Exec (.seq c d) σ .raised τ
  | left {c d : Cmd} {σ τ : State} {o : Outcome} (h : Exec c σ o τ) : Exec (.choice c d) σ o τ
  | right {c d : Cmd} {σ τ : State} {o : Outcome} (h : Exec d σ o τ) : Exec (.choice c d) σ o τ
  | loopDone (c : Cmd) (σ : State) : Exec (.loop c) σ .done σ
  | loopStep {c : Cmd} {σ τ υ : State} {o : Outcome} (h₁ : Exec c σ .done τ)
      (h₂ : Exec (.loop c) τ o υ) : Exec (.loop c) σ o υ
  | loopRaise {c : Cmd} {σ τ : State} (h₁ : Exec c σ .raised τ) : Exec (.loop c) σ .raised τ
  | attempt {c : Cmd} {σ τ : State} {o : Outcome} (h : Exec c σ o τ) :
      Exec (.attempt c) σ .done τ

/-- `asarray`, `ascontiguousarray`, `reshape`: a view or a copy. -/
def asarray (r s : Var) : Cmd := .choice (.view r s) (.alloc r)

/-- `_sqrt`, dcor/_utils.py:103-111. -/
def sqrt (r s : Var) : Cmd :=
  -- x_copy = xp.asarray(x + 0); x_copy[x_copy < 0] = 0
  .alloc .xSum ;; asarray .xCopy .xSum ;; .store .xCopy ;;
  -- xp.sqrt(x_copy), x_copy**0.5
  .alloc r

/-- `_transform_to_1d`, `_transform_to_2d`, dcor/_utils.py:114-144. -/
def transform (r s : Var) : Cmd := asarray r s ;; .choice .skip (asarray r r)

/-- `_cdist_naive`, dcor/distances.py:23-38. -/
def cdistNaive (r s t : Var) : Cmd :=
  asarray .x0 s ;; asarray .y0 t ;; .view .x0 .x0 ;; .view .y0 .y0 ;; .alloc .sqNorms ;;
  .choice (.alloc r) (.alloc .powers ;; sqrt r .powers)

/-- `_pdist_scipy`, `_cdist_scipy`, dcor/distances.py:41-76: `distances **= exponent / 2`. -/
def cdistScipy (r : Var) : Cmd :=
  .alloc .distances ;; .choice .skip (.store .distances) ;; .view r .distances

/-- `pairwise_distances`, dcor/distances.py:79-161. -/
def pairwiseDistances (r s t : Var) : Cmd :=
  transform .x0 s ;; transform .y0 t ;; .choice (cdistScipy r) (cdistNaive r .x0 .y0)

/-- `_float_copy_to_out`, dcor/_dcor_internals.py:58-72, with `out=None` / with an `out`. -/
def floatCopy (r : Var) : Cmd := .alloc r

def floatCopyToOut (r out : Var) : Cmd := .choice .skip (.store out) ;; .view r out

/-- `double_centered`, dcor/_dcor_internals.py:254-267, and `u_centered`, lines 330-348, once the output
array has been selected. -/
def centre (out : Var) : Cmd :=
  .store out ;; .store out ;; .store out ;; .choice .skip (.store out)

/-- `_distance_matrix_generic`, dcor/_dcor_internals.py:675-691: `centering(a, out=a)`. -/
def distanceMatrix (r s : Var) : Cmd :=
  transform .x0 s ;; pairwiseDistances .a .x0 .x0 ;; floatCopyToOut .out .a ;; centre .out ;;
  .view r .out

/-- Names of the seven results of the functions that compute the terms. -/
def allocTerms : Cmd :=
  .alloc .meanProd ;; .alloc .aSum ;; .alloc .aTotal ;; .alloc .bSum ;; .alloc .bTotal ;;
  .alloc .aVar ;; .alloc .bVar

/-- `_dcov_terms_naive`, dcor/_dcor_internals.py:130-173, with `_compute_distances`, lines 657-672. -/
def termsNaive (s t : Var) : Cmd :=
  transform .x0 s ;; transform .y0 t ;; pairwiseDistances .a .x0 .x0 ;;
  pairwiseDistances .b .y0 .y0 ;; asarray .aVec .a ;; asarray .bVec .b ;; allocTerms

/-- `_get_impl_args`, dcor/_fast_dcov_avl.py:202-285. -/
def getImplArgs (s t : Var) : Cmd :=
  asarray .xImpl s ;; asarray .yImpl t ;; .alloc .temp ;;
  .alloc .argsort ;; .alloc .vx ;; .alloc .ix ;; .store .ix ;;
  .alloc .argsort ;; .alloc .vy ;; .alloc .iy ;; .store .iy ;;
  .alloc .yReord ;; .alloc .argsort ;; .alloc .iyReord ;; .store .iyReord ;;
  .alloc .cMat ;; .alloc .cReord ;; .alloc .sxC ;; .alloc .syC ;;
  .loop (.view .cReordElem .cReord ;; .store .cReord ;; .store .sxC ;; .store .syC) ;;
  .alloc .s ;; .alloc .posSums ;; .store .posSums ;; .alloc .posSums ;; .alloc .gamma

/-- `_dyad_update` and its compiled version, dcor/_fast_dcov_avl.py:43-132. -/
def dyadUpdate (gamma : Var) : Cmd :=
  .store .s ;; .alloc .positions3a ;; .store .positions3a ;; .alloc .positions3b ;;
  .store .positions3b ;;
  .loop (.choice (.store gamma ;; .store .s) (.store .s ;; .store gamma))

/-- `_distance_covariance_sqr_terms_avl_impl`, dcor/_fast_dcov_avl.py:314-414, with
`_partial_sum_2d`, lines 154-175: `gamma[i]` is stored to. -/
def avlImpl (s t : Var) : Cmd :=
  getImplArgs s t ;; .loop (.view .gammaI .gamma ;; dyadUpdate .gammaI ;; .alloc .gammaI) ;;
  allocTerms

/-- `_compute_weight_sums`, dcor/_fast_dcov_mergesort.py:40-130. `previous_indexes` and
`current_indexes` are halves of `indexes`, swapped after every pass. -/
def weightSums : Cmd :=
  .alloc .weightSums ;; .alloc .indexes ;; .store .indexes ;; .view .previous .indexes ;;
  .view .current .indexes ;; .alloc .weightsCumsum ;;
  .loop (.loop (.store .weightsCumsum) ;;
    .loop (.loop (.choice (.store .current) (.store .current ;; .store .weightSums)) ;;
      .choice (.store .current) .skip) ;;
    .view .temp .previous ;; .view .previous .current ;; .view .current .temp)

/-- `_distance_covariance_sqr_terms_mergesort_impl`, dcor/_fast_dcov_mergesort.py:215-264, with
`_compute_aijbij_term`, lines 142-174. -/
def mergesortImpl (s t : Var) : Cmd :=
  asarray .xImpl s ;; asarray .yImpl t ;; .alloc .argsort ;; .alloc .xImpl ;; .alloc .yImpl ;;
  .alloc .weights ;; weightSums ;; .alloc .aSum ;; .alloc .bI ;; .store .bI ;; allocTerms

/-- The loop over the implementations in `_distance_covariance_sqr_terms_avl` and
`_distance_covariance_sqr_terms_mergesort` (dcor/_fast_dcov_avl.py:513-560,
dcor/_fast_dcov_mergesort.py:372-419): the first one can be abandoned after a `TypeError`. -/
def termsFast (impl : Var → Var → Cmd) (s t : Var) : Cmd :=
  transform .x0 s ;; transform .y0 t ;; .choice .skip (.attempt (impl .x0 .y0)) ;; impl .x0 .y0

/-- Terms with any method. -/
def terms (s t : Var) : Cmd :=
  .choice (termsNaive s t) (.choice (termsFast avlImpl s t) (termsFast mergesortImpl s t))

/-- `_dcov_from_terms`, dcor/_dcor_internals.py:176-199. -/
def fromTerms (r : Var) : Cmd :=
  .alloc .first ;; .alloc .second ;; .alloc .third ;; .store .first ;; .store .second ;;
  .store .third ;; .alloc r

/-- `distance_covariance_sqr`, `u_distance_covariance_sqr`, dcor/_dcor.py:217-238, 440-558. -/
def dcovSqr (r s t : Var) : Cmd := terms s t ;; fromTerms r

/-- `stats_sqr`, dcor/_dcor.py:240-313 (`distance_stats_sqr`, `u_distance_stats_sqr`,
`distance_correlation_sqr`, `u_distance_correlation_sqr`). -/
def statsSqr (r s t : Var) : Cmd :=
  terms s t ;; fromTerms .cov ;; fromTerms .varX ;; fromTerms .varY ;; .alloc .denominator ;;
  sqrt .denominator .denominator ;; .alloc .corr ;; .alloc r

/-- `_af_inv_scaled`, dcor/_dcor_internals.py:703-735, with `_mat_sqrt_inv` and `_cov`. -/
def afInvScaled (r s : Var) : Cmd :=
  transform .x0 s ;; .alloc .covMat ;; .alloc .eigenvalues ;; .alloc .eigenvectors ;;
  .store .eigenvalues ;; .alloc r

/-- `distance_correlation_af_inv_sqr`, dcor/_dcor.py:1094-1110. -/
def afInvSqr (r s t : Var) : Cmd :=
  afInvScaled .uX s ;; afInvScaled .uY t ;; statsSqr .corr .uX .uY ;;
  .choice (.alloc r) (.view r .corr)

/-- `energy_distance`, dcor/_energy.py:195-209, and `_energy_distance_from_distance_matrices`. -/
def energyDistance (r s t : Var) : Cmd :=
  transform .uX s ;; transform .uY t ;; pairwiseDistances .a .uX .uX ;;
  pairwiseDistances .b .uY .uY ;; pairwiseDistances .c .uX .uY ;; .alloc r

/-- `_energy_test_statistic_multivariate_from_distance_matrix`, dcor/homogeneity.py:128-166. -/
def energyMultivariate (r m : Var) : Cmd :=
  .view .a m ;; .alloc .pairwiseEnergy ;; .view .energy .pairwiseEnergy ;;
  .loop (.view .a m ;; .alloc .pairwiseEnergy ;; .store .energy) ;; .view r .energy

/-- `_permutation_test_with_sym_matrix`, dcor/_hypothesis.py:48-132. -/
def permutationTest (statistic : Var → Var → Cmd) (r m : Var) : Cmd :=
  asarray .matrix m ;; statistic .statistic .matrix ;;
  .loop (.alloc .perm ;; .alloc .res ;; asarray .res .res ;; statistic .energy .res) ;; .alloc r

/-- `energy_test`, dcor/homogeneity.py:244-287. -/
def energyTest (r s t : Var) : Cmd :=
  .loop (transform .uX s ;; transform .uY t) ;; .alloc .pooled ;; .alloc .sampleIndexes ;;
  .store .sampleIndexes ;; pairwiseDistances .uX .pooled .pooled ;;
  permutationTest energyMultivariate r .uX

/-- `mean_product`, `u_product` and products with a number, dcor/_dcor_internals.py:351-460. -/
def product (r _s : Var) : Cmd := .alloc r

/-- `u_projection`, `u_complementary_projection` and the functions they return,
dcor/_dcor_internals.py:463-654. -/
def project (r _s : Var) : Cmd := .alloc .proj ;; .alloc r

/-- `distance_covariance_test`, dcor/independence.py:104-135. -/
def dcovTest (r s t : Var) : Cmd :=
  transform .uX s ;; transform .uY t ;; distanceMatrix .uX .uX ;; distanceMatrix .uY .uY ;;
  permutationTest product r .uX

/-- `partial_distance_covariance_test`, dcor/independence.py:212-238. -/
def partialTest (r s t u : Var) : Cmd :=
  distanceMatrix .uX s ;; distanceMatrix .uY t ;; distanceMatrix .uZ u ;; project .uX .uX ;;
  project .uY .uY ;; permutationTest product r .uX

/-- `partial_distance_covariance` and `partial_distance_correlation`, dcor/_partial_dcor.py:81-87,
149-174. -/
def partialDcor (r s t u : Var) : Cmd :=
  distanceMatrix .uX s ;; distanceMatrix .uY t ;; distanceMatrix .uZ u ;; project .uX .uX ;;
  project .uY .uY ;; .loop (product .cov .uX ;; sqrt .denominator .cov) ;; .alloc r

/-- `distance_correlation_t_statistic`, `distance_correlation_t_test`,
dcor/independence.py:284-289, 341-349. -/
def tTest (r s t : Var) : Cmd := statsSqr .corr s t ;; .alloc .cov ;; sqrt .denominator .cov ;; .alloc r

/-- `_rowwise_distance_covariance_sqr_avl_generic`, dcor/_fast_dcov_avl.py:563-640; the universal
function calls the compiled implementation for every row and stores into `res`. -/
def rowwiseAvl (r s t : Var) : Cmd :=
  asarray .uX s ;; asarray .uY t ;; .alloc .res ;;
  .loop (.view .x0 .uX ;; .view .y0 .uY ;; avlImpl .x0 .y0 ;; fromTerms .cov ;; .store .res) ;;
  .view r .res

/-- The optimised functions of dcor/_rowwise.py:17-99: `corr_sqr[np.isnan(corr_sqr)] = 0`. -/
def rowwiseOptimized (r s t : Var) : Cmd :=
  .choice (rowwiseAvl r s t ;; .choice .skip (sqrt r r))
    (.alloc .concatX ;; .alloc .concatY ;; rowwiseAvl .uZ .concatX .concatY ;; .view .cov .uZ ;;
      .view .varX .uZ ;; sqrt .varX .varX ;; .view .varY .uZ ;; sqrt .varY .varY ;; .alloc .corr ;;
      .store .corr ;; .view r .corr ;; .choice .skip (sqrt r r))

/-- `rowwise`, dcor/_rowwise.py:177-193, applied to a function of the library. -/
def rowwise (f : Var → Var → Var → Cmd) (r s t : Var) : Cmd :=
  .choice (rowwiseOptimized r s t)
    (.choice .skip (rowwiseOptimized r s t) ;;
      .loop (.view .xRow s ;; .view .yRow t ;; f .rowResult .xRow .yRow) ;; .alloc r)

/-- The public functions, applied to the user's arrays `x`, `y` and `z`. -/
def publicFunctions : List Cmd := [
  -- distance_covariance_sqr, u_distance_covariance_sqr; distance_covariance
  dcovSqr .result .x .y,
  dcovSqr .cov .x .y ;; sqrt .result .cov,
  -- distance_stats_sqr, u_distance_stats_sqr, distance_correlation_sqr, u_distance_correlation_sqr
  statsSqr .result .x .y,
  -- distance_stats, distance_correlation
  statsSqr .cov .x .y ;; sqrt .result .cov ;; .loop (sqrt .result .cov),
  -- distance_correlation_af_inv_sqr, distance_correlation_af_inv
  afInvSqr .result .x .y,
  afInvSqr .cov .x .y ;; sqrt .result .cov,
  -- distances.pairwise_distances
  pairwiseDistances .result .x .x,
  pairwiseDistances .result .x .y,
  -- double_centered and u_centered without `out`
  floatCopy .out ;; centre .out ;; .view .result .out,
  -- mean_product, u_product, u_projection, u_complementary_projection
  product .result .x,
  project .result .x,
  -- energy_distance, homogeneity.energy_test_statistic, homogeneity.energy_test
  energyDistance .result .x .y,
  transform .xSample .x ;; transform .ySample .y ;; energyDistance .energy .xSample .ySample ;; .alloc .result,
  energyTest .result .x .y,
  -- partial_distance_covariance, partial_distance_correlation
  partialDcor .result .x .y .z,
  -- independence.distance_covariance_test, partial_distance_covariance_test,
  -- distance_correlation_t_statistic, distance_correlation_t_test
  dcovTest .result .x .y,
  partialTest .result .x .y .z,
  tTest .result .x .y,
  -- rowwise, applied to the covariance and correlation functions
  rowwise dcovSqr .result .x .y,
  rowwise statsSqr .result .x .y,
  rowwise afInvSqr .result .x .y]

end Dcor.Effects

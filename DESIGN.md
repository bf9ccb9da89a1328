# Formal model of vnmabus/dcor in Lean 4 — design

Layout of `lean/Verif`:

* `Model/` — the model of the Python code, one file per Python module (`Py.lean` fixes the meaning of the
  Python/NumPy primitives). Every definition cites the file and lines of `/repo` it mirrors.
* `Spec/` — independent specifications: the statistics as double sums over Euclidean distances, what it
  means for an array to hold points, which calls are supported, uniform distributions over resamples.
* `Proofs/` — helper lemmas.
* `Props/` — the property theorems (`Cnn_…`, one file per topic), each followed by an `example` that meets
  its hypotheses on concrete, non-trivial data. The statements use only `Model` and `Spec`.

Other files: `properties.jsonl` (the properties in English), `MANIFEST.json` (status and theorem names per
property), `seeded/LOG.jsonl` (wrong programs the theorems were tested against).

## Vocabulary

* **Numbers.** Samples hold real numbers and arithmetic is exact. The two fast algorithms are written once
  over an arbitrary commutative ring, so the same definitions serve `ℝ`, `ℚ`-valued data and `int64` with
  wrap-around (`BitVec 64`). Results are `FP ℝ`: a number, `±inf` or NaN, with IEEE rules for division by
  zero, so small-sample branches are explicit. Division by zero of *Python* numbers is an exception.
* **Arrays.** A length-`n` vector is `Fin n → α`. An argument `Arr` has a library (`numpy`/`other`), a dtype
  (`float64`, `float32`, `int64`, objects `Fraction`, `Decimal`) and data of 1, 2 or ≥3 dimensions. In the
  explicit Python loops each element access is checked; out of bounds is an `IndexError` value (uncompiled)
  or `undefinedBehaviour` (compiled), so "returns" implies "no access out of bounds".
* **Control flow.** A call is `PyM α`: the warnings issued, then a value or an exception.
* **Oracles.** External code is a parameter with its contract, never an axiom: `argsort` is any permutation
  that sorts (so ties are arbitrary); `eigh` is any orthonormal eigendecomposition of symmetric matrices; a
  random generator is any state machine that returns permutations; joblib is a transition system in which
  tasks start in order and finish in any order; `scipy.stats.t` is any family of strictly increasing
  cdfs with values strictly between 0 and 1, or the t-distribution itself (`studentT`, C106-C108); `str.upper` is any function (with the facts needed about the literal names).
* **Memory.** Two models. `Heap.lean`: cells, arrays as views that may overlap, exact contents — used for
  the functions with `out=` and for `_sqrt`. `Effects.lean`: a small imperative language (allocate, view,
  store, choice, loop, call) in which *every* public function is transcribed with all its stores; a static
  check (`check`) is proved sound with respect to the operational semantics (`check_sound`), and then
  evaluated on all functions. This gives C53 and C60 for every branch and every exception.

* **Rounding.** `Rounding.lean` writes the naive, AVL and mergesort methods again, operation by operation in the order
  of the source, over `Arith R`: a record of operations that satisfies *no* law (so NaN, infinities, overflow are
  included). `binary64 sqrt sum dot` is the instance for `float64`: rational numbers with each operation rounded to
  53 significant bits, ties to even (`round64`, unbounded exponent: no overflow or underflow). What NumPy and BLAS do is
  a contract, `IsFloat64 sqrt sum dot`: `np.sum` adds the elements in some order with some parentheses, `@` does the
  same with products rounded or fused, `sqrt` is correctly rounded. `Equivariant` adds that the order does not depend
  on the scale of the data. `float64_seq` exhibits an implementation that satisfies both, so the contracts
  can be met. For the narrow types the contracts are `SumsTo32`, `F16.IsSum` and `F16.IsDot` (sums in any order, with the
  accumulators NumPy uses) and `IsSqrt32` and `F16.IsSqrt` (a bound on the relative error of the square root); for each there is
  an implementation that meets it.

## What is modelled

| Python | Model | covered |
|---|---|---|
| `_dcor_internals.py` | `Internals`, `Distances`, `Partial`, `AfInv`, `Heap` | terms, centring, products, projections, `_dcov_from_terms`, `_sqrt`, `_cov`, `_mat_sqrt_inv`, `out=` |
| `_dcor_internals_numba.py` | `Dcor`, `Rowwise` | which dtypes are accepted by compiled code; same formulas; `int64` wrap-around of the divisors in the row-wise kernel |
| `_dcor.py` | `Dcor`, `AfInv` | method dispatch, `auto` selection, all covariance/correlation/stats functions, affinely invariant versions |
| `_fast_dcov_avl.py` | `Avl`, `Rowwise`, `IntWrap`, `NarrowInt`, `UnsignedInt`, `Float32`, `Float16`, `Float16Rowwise`, `Float32Rowwise` | both inner loops, index arithmetic, dispatcher with fallback, the row-wise gufunc, integer dtypes, `float32`, `float16` |
| `_fast_dcov_mergesort.py` | `Mergesort`, `Dcor`, `IntWrap`, `NarrowInt`, `UnsignedMerge`, `Float32Merge`, `Float16Merge` | merge loops, weights, terms, dispatcher, integer dtypes, `float32`, `float16` |
| `_energy.py`, `homogeneity.py` | `Energy`, `Homogeneity` | everything, any `average` function |
| `_hypothesis.py`, `independence.py` | `Hypothesis`, `Independence` | permutation tests (sequential and parallel), t test, result object |
| `_partial_dcor.py` | `Partial` | both functions with NumPy broadcasting |
| `_rowwise.py` | `Rowwise` | modes, six optimised functions |
| `_utils.py` | `Distances`, `Hypothesis`, `Internals` | namespaces, shape conversion, random state, compile modes |
| `distances.py` | `Distances`, `IntWrap`, `UnsignedMatrix` | SciPy path and array-API path, unsigned and signed wrap-around |

## What is not modelled

* In C01–C64: floating point rounding and overflow; NaN or infinities inside the samples. These theorems are about
  exact arithmetic on the same formulas; the order of summation is therefore irrelevant. C65–C73 are about rounding,
  see "Rounding" below; there and in C79–C81 and C84 the exponent has no limits, except in C65, which holds for any
  arithmetic. Overflow, underflow, infinities and NaN are the subject of C85–C89. The sign of zero, the payload of NaN and
  the warnings of NumPy are not modelled.
* The numba compiler: compiled functions are assumed to compute what the Python source says, apart from
  unchecked indexing (modelled) and the accepted dtypes (modelled).
* SciPy's `cdist`/`pdist` code (only its contract), performance, memory use, the quality of random numbers.
* 0-dimensional arrays, ragged input, masked arrays, array subclasses, complex dtypes, boolean dtypes except in C112, seeds
  rejected by `RandomState`, deprecation warnings for non-array inputs.
* `int64` wrap-around only where `IntWrap.lean` says so (C49, C50); elsewhere `int64` data are exact. The
  naive method on NumPy integers (SciPy converts to double) is exact. The dtypes `int8`, `int16`, `int32` and `bool`
  appear only in `NarrowInt.lean` (C112), `uint8`, `uint16` and `uint32` in `UnsignedInt.lean` (C114),
  `UnsignedMerge.lean` (C120), in the distances (C50) and in `UnsignedMatrix.lean` (C133).
* `_af_inv` with fewer than two observations (division by `n - 1`) is `undefinedBehaviour` in the model and
  excluded from the theorems.
* In the partial functions `Decimal` arrays mixed with others are excluded (they raise `TypeError`).

## Trusted base

Lean's kernel; the axioms `propext`, `Classical.choice`, `Quot.sound`. Checked with `#print axioms` on every
theorem named in `MANIFEST.json`: all depend on exactly these three, except `C38_pool_terminates`
(`propext`, `Quot.sound`). No `sorry`, no added axioms, no `native_decide`/`bv_decide`. Beyond that one has
to trust that the definitions in `Model/` and the first layer of `Spec/` say what the Python code and the
textbook definitions say: they were read by hand, line by line, from the pinned commit.

## Properties, one by one

Status "proved" is for all inputs in the stated class; "partial" means that the English claim is false
of the code, or only part of it is expressible, and the theorem names say what is missing.

**Fast algorithms.** C01: loop invariant of the dyadic buffer (`Σ_{j<i, y_j<y_i} c_j` telescopes over the bits
of the rank), then the sign-product identity; both estimators, `n>3`, every tie-breaking. C02: invariant
of the merge loop, induction over passes; every `n ≥ 1` (biased) and `n > 3` (unbiased). C03: corollary
through `Supported`, for all seven functions. C04: both loops refine the same sum. C05/C06: the checked loops
return for every `n` and every ring, so also for wrapped integers; the final index buffer is a sorted
permutation. C07: `2n²var` identity, fields of the statistics tuples. C08/C09: equality with the centred matrix
products *as computed by the model of* `double_centered`/`u_centered`.

**Values.** C10, C11: Schoenberg's theorem — Gaussian kernels are positive definite (Schur products of
exponentials) and `t^α` is a mixture of `1-exp(-s t²)`; hence `-d^α` is of negative type for `α ∈ (0,2]`; witness
that exponent 4 breaks it. C12: Cauchy–Schwarz for U-products. C13–C15: equality cases. C16–C18:
re-indexing, isometries, scaling. C54, C55: *strict* negative type for `α ∈ (0,2)` (moments of the mixture
separate points), giving "zero iff same empirical distribution" and "zero iff empirically independent".

C61, C62: closed forms of the centred matrices; the labels
matrix has rank one with the weights `1/n`, `-1/m` whose quadratic form is the energy distance. C63: the sum over
all permutations of an entry of the matrix depends only on whether the entry is diagonal. C64: the estimator is
a U-statistic: induction over the sample size by leaving one observation out, and the kernel for four
observations summed over all samples.

**Small samples and failures.** C19 (partial): NaN for naive/auto with `n ≤ 3`; AVL asserts; **mergesort with `n=3`
raises `ZeroDivisionError`** instead of returning NaN. C44 (partial): length mismatch is rejected except
by **mergesort, which ignores surplus observations of `y` and, compiled, reads outside the array when `y` is
shorter**. C45: decision logic. C46 (partial): fallback works for AVL; **mergesort fails for object `y` and for
float `x` with integer `y`; `Decimal` mixed with another dtype fails everywhere**.

**Centring, products, memory.** C21, C22, C24, C25: algebra on finite matrices for all `n`, with the failing sizes.
`double_centered` uses row means for both axes, so symmetry is needed (witness). C23: heap model for every aliasing
pattern: no `out`, `out=a`, disjoint `out`, transposed `out`; **an integer `out` is overwritten before the
`TypeError`, and a partially overlapping `out` gives wrong values**. C53, C60: see "Memory" above.

**Partial.** C26–C28: Hilbert-space algebra. C56 (partial): **a sample of length one is broadcast silently**.

**Distances and energy.** C29 (partial): **the array-API path returns the transposed matrix**. C30: both paths.
C31–C35: both estimators; U-statistic of one observation is NaN.

**Tests.** C36–C39: state-machine induction, for every statistic, generator and order of completion. C40 (partial):
**the code counts resamples strictly above the observed statistic, so the level is exceeded for every sample
and every `1 ≤ k ≤ B`** (exchangeability + counting over tuples of permutations); what holds is the bound plus the
probability of a tie. C41, C42: permuting the matrix is permuting the sample. C43: monotone calculus on `FP`.
C57 (partial): **a NaN statistic gets the smallest p-value**; the supported calls never produce NaN.

**Row-wise.** C47 (partial): equality for compile modes AUTO and NO_COMPILE and samples of fewer than 2²¹
observations; **for 2²¹ observations the compiled divisor n³ has the wrong sign, for 2²² it is
zero; a single sample in `y` is reused, COMPILE_PARALLEL works only row-wise**. C48 (partial): **integer samples raise `TypeError`, ragged or
differently shaped samples raise `ValueError` in AUTO**, where the loop works.

**Integers.** C49: the ring homomorphism `ℤ → BitVec 64` commutes with the whole algorithm, so only the final terms
need to fit; witness `(0,0,0,2³²)` with squared correlation `-5/3`. C50 (partial): **`uint8` 0 and 16 are at
distance 0**.

**Affinely invariant correlation.** C20, C58, C59: `S Σ S` is the projection on the range of `Σ`; the whitened Gram
matrices of `x` and `xM+b` agree, so the distances agree; this holds even for singular covariance matrices (in
exact arithmetic), for every choice of eigenvectors.

**Rounding.** C65: the three loops, run with operations that satisfy no law, return a value, so every index is in
range (parametricity: control flow and indices depend on comparisons only through a permutation or a Boolean).
C66: relational induction between the integer run and the rounded run; every intermediate sum is an integer below
2⁵³. C67–C70 (partial): the naive method forms differences first, so constants, exact translations and signs
disappear before anything is rounded; self-correlation: `sqrt(fl(v·v)) = |v|` for correctly rounded square roots
(C69); symmetry because `n`, `n²`, `n³` are powers of two (C70, otherwise **false**). **For AVL, the default method,
C67–C70 are false**; C67–C69 and C72 are also false for mergesort, shown for sums and scalar products from left to right. C71: rounding commutes with powers of two, through every operation of the three methods.
C72 (partial) and C73: forward error analysis. For naive, all terms before the last three operations are nonnegative, so
relative errors compose (`Near`, `ErrorBound.lean`); for AVL and mergesort the invariant bounds size and error of
numbers of both signs (`Err`, `ErrorSigned.lean`), through the dyadic sums, the passes of the merge (`Arith.Step`: at
most ⌈log₂ n⌉ updates per weight sum) and the final formula. **C72 is false for AVL.** Constants are not optimal.

**C74–C75, tests (`Props/TestInvariance`).** C74: the statistic of every resample is multiplied by the same positive
factor (for the energy test also when it is `inf` or NaN), so the comparisons that make the p-value do not change. C75:
by Cauchy–Schwarz for the centred matrices and invariance of the norm under reordering, no permutation exceeds the
observed statistic. Both are statements over real arithmetic: with rounding, ties may be broken.

**C76–C78, stability (`Props/Stability`).** C76: all sums over observations are means of functions of one pair, hence
functions of the frequencies. C77: triangle inequality for distances, and both centrings are orthogonal projections, so
they do not increase the norm. C78: minus the energy distance is a quadratic form of negative type in the weights of the
three pooled samples (`negType`), then Cauchy–Schwarz.

C79–C81: the energy distance and the statistic of its test in `float64` (`Model/RoundingEnergy.lean`: exponent 1, default
average, dcor/distances.py:42-76, dcor/_energy.py:78-131, dcor/homogeneity.py:28-33). C79: the final subtractions
`2a - a - a` are exact, and translations and powers of two commute with every operation. C80: the three means are sums of
nonnegative terms, so each has a small relative error; the last operations are analysed as in C72. The conversion of `n * m`
and `n + m` to `float64` before the division is a simplification below `2 ** 53`. C81 (partial): **false in general**, two
observations per sample suffice for both claims to fail; it holds up to the bound of C80, and symmetry holds exactly if one
sample is a single observation.

C82: an `average` is any total function of the matrix (or flat list) of distances, with a fixed type of result; its effects
and exceptions are not modelled. For arrays that are not NumPy doubles `_cdist` returns the transposed matrix
(`C82_value_object`), which only matters for averages that depend on the order of the distances. The test is stated for
averages that return NumPy floats.

C83: `Model/Cost.lean` repeats the functions of the fast methods with a counter of element operations; `Proofs/Cost.lean`
proves that erasing the counter gives the functions of `Model/Avl.lean` and `Model/Mergesort.lean`, so the counted program is the
one all the other properties are about. The number of steps of every line is a modelling choice stated at each definition (one
per access to an element, comparison or scalar operation, and per element of a vectorised operation); the time of `np.argsort`
is a parameter, and interpreter overhead, allocation and caches are not modelled. The samples are `float64` NumPy vectors;
other dtypes run the same loops after a failed attempt to call the compiled version. The bounds are proved by the potential
method (`Cost.Bnd`).

C84 (partial): the correlation in `float64` (dcor/_dcor.py:241-313, dcor/_utils.py:89-111). **The range is false**: the
squared correlation of `[0, 0.3]` and `[0, 1.7]` is `1 + 2 ** -52` in every order of the operations
(`Proofs/FloatPair.lean` evaluates the naive method for two observations symbolically), and the correlation of
`[1.9, 1.1, 1.6]` and `0.3` times it is above one. Proved: if the error bounds of C72 or C73 for the variances are at most a
fraction `r <= 1/4` of the exact variances, the computed squared correlation is within `3 r + 6 * 2 ** -53` of the exact one,
and outside of the range by no more than that, for the three methods and both estimators. The proof follows the errors
through the product of the variances, its rounded square root and the quotient (`Proofs/FloatCorr.lean`).

**The range of `float64`.** `Model/Float64.lean` has the IEEE 754 numbers with infinities, NaN, overflow and gradual
underflow (`F64.round`), and the contract `IsIeee64` of `np.sqrt`, `np.sum` and `@` (any order, fused or not); `ieee64` is
the arithmetic with which the algorithms of `Model/Rounding.lean` are executed. Simplifications: one zero and one NaN.

C85: infinities and NaN in the samples always give NaN. The row sums decide: in the naive method the distance of an infinite
observation to itself is `inf - inf`; in the AVL method the cumulative sum before that observation is `inf - inf` after the
subtraction; in the mergesort method the last cumulative sum minus twice the cumulative sum. A NaN row sum makes the scalar
product of the row sums NaN whatever the order of summation. For the energy distance the averages between and within the
samples are both infinite or NaN, and they are subtracted.

C86 (partial): **false**. `C86_overflow` and `C86_underflow` hold for the terms of any method: if the product of the two variances
overflows the correlation is `cov / inf = 0`, and if it underflows the denominator is zero and the code returns zero.
Samples that are equal then have correlation zero (`[0, 2 ** 300]`, `[0, 2 ** -300]`), although their covariance and
variances are accurate. Proved (`C86_*_partial`): if the observations are multiples of a power of two that is not too small,
a covariance or variance that is finite is what it is without limits for the exponent, and the correlation too unless the
product of the variances overflows; so the overflow of that product is the only one that goes unnoticed. Missing: what
happens to samples that are not such multiples.

C87: `lower_float64` turns any `ieee64` arithmetic into a `binary64` arithmetic that agrees with it where nothing overflows
or underflows. Two relations are carried through all operations of the three methods and of the energy distance: `RelG g`
(the number is a multiple of `2 ** -g`, and the same in both arithmetics or not finite; `Proofs/Transfer*.lean`), which
excludes underflow, and `Bd w K` (finite and at most `w * 2 ** K`; `Proofs/Bounded*.lean`), which excludes overflow. The
square root and the quotients increase `g` by 52 and the bits of the divisor. `C87_*_accuracy` combine the result with the
error bounds of C72, C73 and C80.

**Tests and partial statistics in `float64`.** `Model/RoundingTests.lean` has the double-centred and U-centred matrices, the
mean product and the U-product, the projections, the partial statistics, the permutation tests of dcor/independence.py and
dcor/_hypothesis.py for the permutations that were drawn, and the energy test with several samples, over the same law-free
`Arith` as the other methods, so that one definition is evaluated with `binary64` and with `ieee64`.

C88: a distance that is not finite makes its row mean NaN or infinite and therefore some entry of the centred matrix NaN
(`centred_nan`); NaN then reaches the statistic (`meanProduct_nan`, `complementary_nan`, `energyMultivariate_nan`), and no
comparison with it is true, so the count is zero. C89: the counts are sums of zeros and ones, which are exact below
`2 ** 53` in any order (`F64.Sums.nat`); `pairEnergy_cdist` says that the blocks of the pooled distance matrix are the
distance matrices of the samples. C90: every operation commutes with powers of two (`Proofs/ScaleTests.lean`), and samples
enter only through the absolute differences of coordinates. C91: `complementary_self`: the coefficient of the projection
of a matrix on itself is exactly one; a correctly rounded square root of a rounded square is exact (C69), so the
correlation of a sample with itself is exactly one and `1 - r ** 2` is exactly zero.

`Model/NumpySum.lean` is the pairwise summation of NumPy (blocks of eight accumulators up to 128 elements, halves above that),
which is one of the orders allowed by `IsFloat64` (`float64_numpy`); it is only used for counterexamples, so that they hold
for what NumPy does and not only for sums from left to right. NumPy is not part of /repo, and this is the algorithm it
documents; the bounds do not depend on it.

C93: `Proofs/ErrorReal.lean` has a calculus of errors relative to a bound of the magnitude (`ErrR k m q r`: `|q| ≤ m` and
`|r - q| ≤ ((1 + u) ** k - 1) * m`), through sums in any order, means and the four subtractions of the centring. The exact
statistic after a permutation is the one of the permuted sample (`centre_perm`), so the same bound holds for all of them, and
the count is between the counts with thresholds moved by twice the bound. C92: clipping does not increase errors; the relative
error of `1 - r ** 2` is at most `η / δ`, a product of square roots has the same relative error up to four roundings, and the
exact partial correlation in terms of the correlations is `partialDcor_value`.

C94: `Model/RoundingRoots.lean` takes the clipped roots of the four squared statistics. `|√w - √c| ≤ √|w - c|` and
`|√w - √c| ≤ |w - c| / √c` turn the bounds of C72, C73 and C84 into bounds for the roots. The design in
`C94_independent_not_zero` has distance covariance zero because the centred matrices of a full factorial design are orthogonal
(`dcovSqr_factorial`, for all designs); its `float64` value is computed by the kernel.

C95: the statistic after a permutation is that of the relabelled samples (`cdist_relabelRat`), so one bound for all families of
samples suffices; the pairs are added from left to right (`ErrR.foldl`), and `n m / (n + m) ≤ (n + m) / 4` bounds their
weights. The count of larger statistics is treated as in C93 (`pvalue_bracket`, `pvalue_separated`).

C96: `u_projection` divides by the inner product of the U-centred matrix of `z` with itself, so the bound contains the quotient
`κ` of the largest distance and the square root of that product (`residual_close`); the product of the residuals is then
bounded entry by entry (`uProduct_close`), for permuted residuals too. Without distance variance of `z` there is no bound
(`C96_degenerate`) except for a constant `z`, whose matrix is exactly zero in `float64` as well (`C96_constant`).

C97: `Verif/Model/RoundingTTest.lean` has the six operations of the t statistic and the p-value for any arithmetic and any
function in place of `scipy.stats.t.cdf`. Rounding and the correctly rounded square root are monotone on all of `float64`
(`Verif/Proofs/Monotone64.lean`), and so is the composition, infinities included, because `1 - r ** 2` is either exactly zero
or at least `2 ** -53`. The error bound contains the Lipschitz constant of `r / sqrt(1 - r ** 2)`; it is combined with the
bounds of the correlation of C84 for both methods. The division by zero for `r = 1` is by `+0.0`, which is why one zero is
enough in the model of `float64`.

C98: the average of the statistic over all permutations is computed exactly (`Spec.dcovStat_perm_average`,
`Spec.energyTestVal_perm_average` in `Verif/Proofs/Power.lean`); Markov's inequality, which needs the statistics to be
nonnegative (C10, C31), bounds the number of permutations whose statistic reaches the observed one, and the p-value is averaged
over all sequences of permutations of the replaying generator. `C98_*` bound p-values from above where C40 bounds their distribution
from the other side.

C99: `Verif/Spec/Population.lean` defines the distance covariance and the energy distance of distributions as integrals, and a
`Sample` as a sequence of measurable, pairwise independent random vectors with the same law. The proof (`Verif/Proofs/Consistency.lean`,
`ConsistencyDcov.lean`) applies Mathlib's strong law of large numbers in the Banach space of bounded continuous functions to
the functions `x -> |x - X_i|^alpha / (1 + |x|)^alpha`, which depend continuously on `X_i` in the supremum norm, so that the mean
distances to the observations converge uniformly in `x`; averages of them over the observations then converge by the law for
real numbers. The tests use the bounds of C98. The arithmetic is exact: rounding is the subject of C66 to C72 and C80 to C97.

C100: the distances are integrals of `1 - exp(-t |x - x'|^2)` over `t > 0` (`Verif/Proofs/NegType.lean`), and the Gaussian
kernel is the average of characters with normally distributed frequencies (`Verif/Proofs/Gauss.lean`). The distance covariance
of a distribution and the energy distance of two are therefore, up to a positive factor, integrals of squared differences of
characteristic functions (`Verif/Proofs/Charac.lean`, `CharacZero.lean`): they vanish only if the characteristic functions are
equal, and these determine the distributions (Mathlib's `Measure.ext_of_charFunDual`). The limits and the tests are those of C99.

C101: the expectation of a product of two distances between observations depends only on how many indices the two pairs share
(`Verif/Proofs/Expectation.lean`). The three sums of which both estimates of the covariance consist (`Proofs/FromTerms.lean`)
therefore have expectations that are linear in three moments of the distribution, with coefficients that count index patterns.
For `u_distance_covariance_sqr` the coefficients collapse to 1, 1 and -2. The observations are independent random variables
(`Spec.Observations`); the calls get their values for each outcome. Float64 rounding is not part of this property.

C102: the joint distribution of independent observations of independent variables does not change if the first variable is
permuted, and that of samples of one distribution does not change under relabelling (`Verif/Proofs/RandomLevel.lean`). The
probabilities of C40 for fixed data, where all relabellings are equally likely, can therefore be integrated over the data. C102
says what the tests do, including that the nominal level is exceeded; see C40 for the disagreement with the nominal level.

C103: for two symmetric matrices with zero diagonal whose rows add to zero the sum over all permutations of the product of two
entries depends only on which of the four indices are equal, and the zero row sums determine the three cases
(`Verif/Proofs/PermVariance.lean`). The tail bounds are Cantelli's inequality. The variance 2/(n(n-3)) is that of the
t-distribution based test with n(n-3)/2 degrees of freedom; that the distribution itself is close to normal is not proved.

C104: the four bias-corrected covariances in the partial distance covariance converge by C99; if the distance variance of the
third vector is zero it is constant (C100) and the projection is the identity. The limits of the p-values follow from the bounds
of C103. C105: `Spec.IndependentGiven` is conditional independence for a third vector with countably many values. The two
counterexamples are distributions on three and four points; their population values are computed by
`Verif/Props/ConditionalIndependence.lean`. The theorems with the suffix `_partial` are the cases in which the claim of the
docstring holds; what is missing is the claim for a third vector that is not constant, and it is false.

C106: C43 and the model take the distribution function of `scipy.stats.t` as a parameter (`StudentT`); `studentT`
(`Verif/Proofs/Student.lean`) is Student's distribution, defined by its density `(1 + s²/ν)^(-(ν+1)/2)` up to normalisation. That
SciPy computes this function is trusted. The upper tail is at most `e/t` for all degrees of freedom, which gives the limit; the
bound of the level is the one of C103 averaged over the data.

C107: for signs the bias-corrected covariance is a polynomial in three sums (`CoinLimit.uDcovSqr_signs`); the sum of the products
has a normal limit by the central limit theorem of Mathlib, the other sums only enter a remainder that tends to zero in
probability. The bias-corrected variances tend to 1/4 by C99.

C108: "based on convergence to a Student t distribution". U-centring is the orthogonal projection on a space of dimension
n(n-3)/2 (`UProjection`); in orthonormal coordinates of that space the distances, minus functions of single observations, are
normalised sums of products plus a remainder of order 1/√p (`HighDimension.abs_rest_le`). A central limit theorem for vectors
(`VectorClt`, from Lévy's theorem in Mathlib) gives independent normal coordinates, and the share of one direction of a normal
vector has the t-distribution with n(n-3)/2 - 1 degrees of freedom (`StudentLaw`). Directions that vary with the dimension are
treated by compactness, random ones by conditioning. Levels α ≥ 1/2 are not considered.

C109: `Verif/Model/RoundingRowwise.lean` has the concatenation, the slices and the quotient of dcor/_rowwise.py in any
arithmetic. The entries reduce to the statistics of the AVL method (`rowwiseCorrelation_of_stats`), so that the error bounds
of C73 apply to the three covariances; `row_quotient_error` bounds the quotient with two square roots and two divisions.
Missing values follow from C85, since the NaN is replaced by zero. The witnesses are computed with sums from left to right.

C110: the distances after whitening depend on the sample only up to affine maps (C20), so that the covariance matrix of the
distribution may be taken to be the identity; `exists_whitening` finds the affine map for every square integrable
distribution, with a smaller dimension if the covariance matrix is singular. By the law of large numbers the covariance
matrix of the sample tends to the identity (`covMatrix_law`), its eigenvalues tend to one (`eig_near`), and all distances
change by a factor that tends to one uniformly (`distMat_near`). The three sums of the distance covariance have non-negative
terms, so that it changes by a small multiple of sums that converge by C99 (`dcovSqr_near`). Exact arithmetic: the rank of
a singular covariance matrix is found exactly.

C111: the inequality of McDiarmid (`Concentration.mcdiarmid`, proved with the lemma of Hoeffding, one observation after the
other). Replacing one observation changes one row and one column of the matrices of distances, which changes the three sums of
the covariance by at most `2 (n - 1)`, `3 (n - 1) ^ 2` and `4 n (n - 1) ^ 2` times `A B` (`Differ.products`, `Differ.rows`,
`Differ.totals`) and the statistics by at most `12 A B / (n - 4)` and `12 A B / n`; the energy distance changes by at most
`4 D / n`. The means are the ones of C101. Values are required to be in a set with bounded distances with probability one
only: outside of it they are replaced (`clip`). Exact arithmetic.

C112: the model of the AVL method is the one of C49 with two types, the dtype of the samples (`NarrowType`: what is stored in
arrays made with `zeros_like`, `ones_like` or products of the samples) and `int64` (what `np.sum`, `np.cumsum` and the index
arrays give). `NarrowType.IsMonoid` is the one fact needed about the first: storing an `int64` sum is the sum of the stored
numbers. So every stored number is the exact one modulo `2 ^ w`, and it is right if the exact one is in the range; the largest
is `4 * gamma` (line 174 of the AVL file), at most `4 (n - 1) M N`. `C112_labels_fail` shows that this limit is sharp: 33
observations of 0 and 1 in `int8`, `4 · 32 = 2 ^ 7`. For mergesort the limit is `3 n ^ 2 M N / 2`, and from 128 `int8`
observations on every call raises `OverflowError` (`C112_mergesort_error`). Assumed: NumPy 2 promotion (a Python integer takes
the dtype of the array), both samples of the same dtype. Mergesort on booleans raises `TypeError` and is not modelled.

C113: `avlStatsSingle` takes two arithmetics, single (`binary32`) and double (`binary64`), and uses each where NumPy 2 promotion
does: partial sums, the sum of products, `np.var` and the first term of `_dcov_from_terms` are single, what is multiplied by an
`int64` index array is double. The error analysis is that of C73 with `ErrS k`, `k` roundings of relative error `2 ^ -24`; a
rounding to 24 bits is at most `2 ^ 29` roundings to 53 bits (Bernoulli), so that both kinds can be mixed. The witnesses are
exact in `float32`, and everything is computed exactly except the sum of products. For whole numbers with
`4 * n ^ 2 * X * Y ≤ 2 ^ 24` no sum is rounded (`C113_integer_terms`, from the lemmas of C66 with both precisions), and the error
is bounded by the distances (`C113_integer_accuracy`). The row-wise covariances (`rowCovarianceSingle`) are those of C109 with
one more rounding. The energy distances and the row-wise correlations on `float32` are not modelled; overflow and underflow are
not either. Mergesort is in C121.

C114: `NarrowType.unsigned` instantiates the definitions of C112, so that the closed form is the same; the row sums and totals are
`float64` numbers (`uint64` and `int64` together), whose rounding is not modelled. `uint64` samples and two samples of
different dtypes are not modelled.

C115: the centred distance matrix is negative semidefinite (C10) with trace `-n` times the mean difference, and the sum of the
squared entries of a semidefinite matrix is at most its squared trace. Row sums whose squares have a mean at least the
square of their mean give the bound by the standard deviation. For exponents up to one both differences are sums of terms that
are nonnegative by the triangle inequality, and vanish only for two-valued samples.

C116: `|x - y|` is the integral of the squared difference of the distribution functions of `x` and `y`, so combinations of
distribution functions with weights that add up to zero have integrals that are sums of distances. Weights `1/n` and `-1/m` give
the energy distance; the weights of deviations from the mean give the centred matrix, and products of integrals are integrals
over the plane. The theorems also say that the integrands are integrable.

C117: C111 with half of the population value as error makes the statistic large with a probability of `1 - δ`, and C98 (Markov's
inequality for the mean of the statistic over all permutations) bounds the fraction of permutations with another p-value.

C118: U-centring maps `d i j + r i + r j` (off the diagonal) to the same matrix as `d i j`. Moving an extreme number away adds a
constant to its distances, which is of this form. The variance is a sum of squares of U-centred distances, so it vanishes exactly
for `d i j = r i + r j`; four numbers `a ≤ b ≤ c ≤ d` with such distances have `b = c`. C14 keeps its hypothesis that the
bias-corrected variance is not 0; C118 says when that is the case.

C119: the sample with one observation moved by `t u`, divided by `t`, tends to the sample with `u` at that place and zero elsewhere.
The distances of the latter are a multiple of a star, and the distance covariance of a star at `i` with any matrix is `-2 / n ^ 2`
times the entry `i, i` of the centred matrix. Distance correlation does not change under scaling and is continuous where the
variances are not zero. The permuted statistics have the same scale, so that strict inequalities of the limits decide.

C120: the row sums of the mergesort method contain `total - 2 * cumulative sums`, which is a `uint64` subtraction. It is negative for
the largest observation, so that its row sum is too large by `2 ^ 64`. The second term of the formula, twice the mean of the products
of the row sums, then exceeds everything else (Cauchy-Schwarz for the third term). The columns have no ties, so that sorting a
sorted column changes nothing. What remains of the claim is that columns with `2 ^ w` or more observations give an error
instead of wrong values. `uint64` samples are not modelled.

What remains true is `C120_remainder_partial`: reduction from 64 to w bits is a ring homomorphism, and the terms are polynomials in the
observations; so the values are right modulo 2^w. `C120_products_fail` shows that the sum of products is wrong as well.

C121: `mergesortTermsSingle` is `mergesortTerms` with the sum of products and the cumulative sums in single precision and the row sums in
double precision. On small whole numbers both precisions are exact (the lemmas of C66), so that the terms are those of double precision;
`.item()` makes the sum of products a Python `float`, hence everything after it is double precision too. The error then is that of
the naive method (C72). Missing: other samples; far from zero the results are wrong (`C121_years_fail`, `C121_pressures_fail`,
`C121_constant_fails`).

C122: as in C119 the moved samples divided by `t` tend to samples that are `u` at one place and zero elsewhere. For samples of zeros and
`u`s the V-statistic is `2 |u| ** alpha` times the squared difference of the shares of `u`s, which gives the limit of the statistic of
`energy_test` for every permutation; it decreases with the size of the sample in which the outlier lies. For U-statistics the part of
the energy distance that contains one observation is a mean of differences `d(z, y_j) - d(z, x_k)`, which the triangle inequality bounds.

C123: the U-centred matrix of two observations is NaN off the diagonal, that of three is zero (in exact arithmetic), so that the product
is 0/0. Missing: a single observation, for which the diagonal is set to zero after the divisions and the value is 0
(`C123_single_observation`), and object arrays, for which Python divides (`C123_fraction_crashes`). `C123_not_symmetric` shows that for
samples of different lengths, which are broadcast (C56), the order of the arguments decides between 0 and NaN.

C124: by the representation of the population statistics with characteristic functions (C100), the integrand for sums of independent
variables is bounded by the two integrands with Minkowski's inequality (`Proofs/Sums.lean`); the limits of the returned values are those
of C99. The complete designs (`C124_all_sums`) are the same theorem for the uniform distributions on the observations and on the errors.
`C124_single_sums_exceed` shows that the inequality does not hold for the values of single samples.

C125: permuting the rows and columns of the residual matrix of x is the same as permuting x and z together (`C125_permutes_x_and_z`).
Missing: permutations that change the distances within z. `C125_permuted_sample_fails` has four observations and one permutation, for
which the permuted x gives twice the statistic, but the permutation is not counted.

C126: U-centred matrices of four observations form a plane, so that the residuals given z lie on a line, and the inequality of Cauchy and
Schwarz is an equality. `C126_constant_z` shows that the hypothesis on z is needed.

C127: powers of a distance are continuous in the exponent, also for the distance 0 as long as the limit is positive; for exponents that
tend to zero they tend to the indicator of different observations. The statistics of these indicators are computed by counting
(`valueFreq`, `jointFreq`). `C127_exponent_zero` shows that the limits are not attained.

C128: the statistic is rewritten with the mean distances between the samples; for two samples by computation, for samples of the same
size by summing over all pairs. Relabelling does not change the dispersion of all observations, so only the dispersion within the
samples decides. `C128_unequal_sizes` shows that the restriction on the sizes cannot be dropped.

C129: for the bias-corrected distance covariance by induction on the number of observations left out, from the identity for one
observation (C64) and a permutation that extends the inclusion of the remaining ones; for the energy distance by computing the averages
of the mean distances.

C130: from the formulas of C26 and C27; residuals of similar samples are multiples of each other, U-products do not depend on the order
of the observations, and the Cauchy-Schwarz inequality gives the bounds.

C131: the three sums of the distance covariance (Proofs/FromTerms.lean) are computed for labels at equal distances, which gives the difference of the
dispersions of C128 with a positive factor, for the samples and for every resample; both tests permute the rows and columns of the
distance matrix of the pooled sample by the same permutations. The labels of a sample are those of the model of the pooled sample, in
the order in which energy_test concatenates its arguments.

C132: the statistics are Gram matrices of the centred distance matrices, also after dividing by the roots of the variances (with zero
for constant samples, as in the code); the inequality for three samples is the determinant of a matrix of three rows.

C133: `UnsignedMatrix.lean` has the energy distance and the naive method on the wrapped distances of C50. Missing: samples for which the
squares of the differences do not fit in the dtype; for them the claim is false (`C133_multiples_energy`, `C133_multiples_covariance`,
`C133_energy_negative`).

C134: `Float16.lean` has the operations of `Float32.lean` with numbers of 11 bits, infinities and NaN. What is not finite stays so in every
operation that follows. Missing: samples other than small integers (`C134_integer_terms_partial`), for most of which the claim is false
(`C134_correlation_fails`, `C134_covariance_fails`); error bounds for small samples of small numbers.

C135: `Float16Merge.lean` has the operations of `Float32Merge.lean` with the arithmetic of `Float16.lean`; `@` multiplies and adds in
`float32`. Proved as C134; the products of small integers come from the general lemmas on arithmetics that are exact on integers. Missing:
samples other than small integers (`C135_integer_terms_partial`), for most of which the claim is false (`C135_correlation_fails`,
`C135_covariance_fails`, `C135_product_fails`, `C135_many_fail`).

C136: `Float16Rowwise.lean`: the compiled method in `float64` and the conversion of the result. The error bound of `float64` (C73) is
combined with that of rounding to 11 bits, with gradual underflow and overflow. Missing: results of 65520 or more, for which the claim is
false (`C136_large_fail`, `C136_unbiased_large_fail`).

C137: `Float16Rowwise.lean`: the quotient of the `float16` covariances of C136. `np.sqrt` is a parameter, assumed to have a relative error
of at most `2 ** -10` (`F16.IsSqrt`). Shown: there is an entry and it is not NaN (`C137_not_nan_partial`); it is within 13 / 1024 of the
squared distance correlation if both squared distance variances are below 65520 and not tiny (`C137_accuracy_partial`,
`C137_unbiased_accuracy_partial`); it is zero if one of them is 65520 or more (`C137_left_fails`, `C137_right_fails` and the
bias-corrected versions), also for two equal rows (`C137_self_fails`); it is infinite if one variance is rounded to zero and the
covariance is not (`C137_infinite_fails`, `C137_equal_groups_fail`), and zero if both are (`C137_tiny_self_fails`). Missing: the ranges in which the claim is false, and variances that
are not rounded to zero but so small that their `float16` values have a large relative error.

C138: `Float32Rowwise.lean`: the quotient of the `float32` covariances of the row-wise functions (C113), with `np.sqrt` a parameter
(`IsSqrt32`). The error of the quotient follows from those of the three covariances and the inequality of Cauchy and Schwarz. Not
modelled: overflow and underflow of `float32`, and variances of zero.

## Disagreements between the code and the expected behaviour

Each is a theorem with a concrete witness or a general statement:

| theorem | behaviour of the code |
|---|---|
| `C19_mergesort_crashes`, `C19_int64_mergesort_crashes`, `C19_fraction_crashes` | `ZeroDivisionError` for three observations, by mergesort or with `Fraction`s |
| `C21_symmetry_needed` | columns not centred for asymmetric matrices |
| `C23_integer_out`, `C23_overlapping_out_wrong` | `out` destroyed before the exception; wrong values |
| `C29_array_api_transposed`, `C29_array_api_wrong_shape` | transposed distances |
| `C36_negative_num_resamples` | negative `num_resamples` accepted: negative p-value or `ZeroDivisionError` |
| `C40_dcov_level_exceeds_nominal`, `C40_energy_level_exceeds_nominal`, `C40_dcov_constant_sample` | anti-conservative permutation tests |
| `C44_mergesort_longer_second`, `C44_mergesort_shorter_second` | length mismatch not rejected; out-of-bounds reads |
| `C46_mergesort_object_fails`, `C46_mergesort_int_fails`, `C46_mixed_decimal_fails` | dtype failures |
| `C47_single_sample_reused`, `C47_parallel_only_rowwise` | row-wise differs from the loop |
| `C47_large_samples_wrong`, `C47_larger_samples_raise` | the row-wise kernel divides by `int64` n³, which wraps: wrong value for n = 2²¹, `ZeroDivisionError` for n = 2²² |
| `C48_integers_rejected`, `C48_ragged_rejected`, `C48_correlation_shapes_rejected` | AUTO fails instead of falling back |
| `C49_overflow`, `C49_naive_overflow`, `C50_fails` | integer wrap-around |
| `C56_length_one_broadcast`, `C56_statement_false` | silent broadcasting |
| `C57_nan_gives_smallest_pvalue`, `C57_undefined_statistic_looks_significant` | NaN looks significant |
| `C67_constant_avl_fails` | AVL, `float64`: squared correlation > 0.7 and negative variance for the constant sample `[0.1]*4` |
| `C67_constant_mergesort_fails` | mergesort, `float64`: squared correlation < −9 for the same samples |
| `C68_translation_avl_fails`, `C69_self_correlation_avl_fails`, `C68_translation_mergesort_fails`, `C69_self_correlation_mergesort_fails` | AVL and mergesort, `float64`: `[0,1,2,4] + 2³⁰` against itself has negative squared covariance, squared correlation below −2 |
| `C81_symmetry_fails`, `C81_negative` | `float64`: the energy distance of two samples of two numbers depends on their order; it can be negative |
| `C84_above_one`, `C84_root_above_one` | `float64`: the (squared) distance correlation of exactly dependent samples can exceed one |
| `C86_overflow`, `C86_underflow`, `C86_naive_large`, `C86_naive_small`, `C86_avl_large` | `float64`: the distance correlation of very large or very small samples is silently zero |
| `C88_distance_covariance_test`, `C88_partial_test`, `C88_energy_test` | `float64`: NaN or infinite observations give the smallest p-value |
| `C92_out_of_range` | `float64`: the partial distance correlation of samples that nearly coincide is -5 |
| `C93_tied_statistics` | `float64`: permutations that leave the statistic unchanged are counted as larger, the p-value is 1 instead of `1 / (m + 1)` |
| `C94_independent_not_zero` | `float64`: the distance correlation of a full factorial design, exactly zero, is more than `1e-8` |
| `C95_tied_statistics` | `float64`: exchanging two observations of one sample changes the energy statistic, so that the p-value is 1 instead of `1 / (m + 1)` |
| `C96_degenerate` | `float64`: for `z = 0, 2, 2, 2, 4` the code projects on rounding errors; a partial distance covariance of 0 becomes more than 1/40, a correlation of 0 more than 1/60 |
| `C96_tied_statistics` | `float64`: a permutation that changes neither `y` nor `z` is counted as larger, so that the p-value is 1 instead of `1 / (m + 1)` |
| `C97_self_avl_fails` | `float64`, default method: the t-test of the times `[0, 1, 2, 4] + 1700000000` against themselves has statistic `-inf` and p-value 1 instead of `inf` and 0 |
| `C97_independent_avl_fails` | `float64`, default method: the times `[0, 1, 2, 4] + 1700000000` and `[2, 0, 3, 1] + 1700000000`, whose correlation is -1/2, have statistic `inf` and p-value 0 |
| `C72_avl_inaccurate`, `C72_mergesort_inaccurate` | AVL and mergesort, `float64`: an error of more than 4 for four observations at distance at most 4 |
| `C70_symmetry_fails`, `C70_avl_fails`, `C70_mergesort_fails` | `float64`: swapping the samples changes the last bit |
| `C10_negative_for_exponent_four`, `C31_negative_for_exponent_four` | negative "squared" statistics outside (0,2] |
| `C105_independent_rejected`, `C105_dependent_accepted` | `partial_distance_covariance_test` does not have the documented null hypothesis: rejects for conditionally independent vectors, p-value 1 for conditionally dependent ones |
| `C107_small_pvalues`, `C107_four` | `distance_correlation_t_test` ("null hypothesis: independent") for independent coins: p-values below 1/100000 with a probability of at least 1/1000 in all large samples, p-value 0 with probability 3/64 for four observations |
| `C109_missing_is_zero`, `C109_constant_row`, `C109_large_offset`, `C109_self_correlation` | `dcor.rowwise` ("the i-th entry is the dependency between x[i] and y[i]") with the optimised correlations in `float64`: 0 for rows with missing values where the function gives NaN, `inf` for a constant row, `-inf` for 2^30 + [0, 1, 2, 4] with itself, 1 + 2^-52 for [0, 1, 2, 4] with itself |
| `C112_labels_fail`, `C112_booleans_fail`, `C112_mergesort_error`, `C112_mergesort_fails` | default method on short integers: for 32 zeros and a one in `int8` the squared distance correlation with itself is -1073/16, for one `True` and three `False` against their negation -7/9, both should be 1; mergesort on `int8` gives -175/81 for (0, 0, 0, 12) with itself and `OverflowError` for all samples of 128 or more observations |
| `C113_years_fail`, `C113_pressures_fail` | default method on `float32`: the squared distance correlation of 2020, 2021, 2022, 2024 with itself is less than 0.92, that of 101325, 101326, 101327, 101329 with itself less than -186 (so `distance_correlation` returns 0), both should be 1 |
| `C113_rowwise_differs` | row-wise functions on `float32`: other values than the functions themselves (89/64, correct, and 81/64) |
| `C114_pixels_fail` | default method on `uint8`: the squared distance covariance of 10, 20, 30, 50 with itself is larger than 10^18 instead of 139.0625, the squared correlation larger than 10^15 instead of 1 |
| `C120_unsigned_fails` | mergesort method on `uint8`, `uint16`, `uint32`: for every column without ties the squared distance variance is below -2^67, distance covariance and correlation of the column with itself are 0 instead of a positive number and 1 |
| `C120_products_fail` | mergesort method on `uint8`: the sum of the products of the distances of 10, 20, 30 is computed as 8368 instead of 1200 |
| `C121_years_fail`, `C121_pressures_fail` | mergesort method on `float32`: the squared distance covariance of the years 2020, 2021, 2022, 2024 with themselves is 65/64 instead of 89/64, that of four pressures of about 101325 is larger than 5000, and their distance correlation with themselves is larger than 60 |
| `C121_constant_fails` | mergesort method on `float32`: a constant column (16777213) has a negative squared distance variance, and its distance correlation with the years 2020, 2021, 2022, 2024 is larger than 0.52 instead of 0 |
| `C123_single_observation`, `C123_fraction_crashes`, `C123_not_symmetric` | partial distance covariance and correlation: a single observation gives 0 instead of NaN; three observations with `Fraction`s in one of the samples raise `ZeroDivisionError`; one and three observations give 0 or NaN depending on the order |
| `C125_permuted_sample_fails` | partial test: the resampled statistics are not those of the permuted sample, since z is permuted with x on one side only |
| `C133_multiples_energy` | `energy_distance` of any two `uint8` samples of multiples of 16 is 0 |
| `C133_multiples_covariance` | naive method: the distance correlation of a `uint8` sample of multiples of 16 with itself is 0 |
| `C133_energy_negative` | `energy_distance` of the `uint8` samples 0, 15 and 16 is -6.5 |
| `C134_correlation_fails` | default method on `float16`: for more than 180 observations the distance correlation of all samples is 0 or NaN |
| `C134_covariance_fails` | default method on `float16`: with a product of observations of 65520 or more the squared distance covariance is infinite or NaN |
| `C135_correlation_fails` | mergesort method on `float16`: for more than 180 observations the distance correlation of all samples is 0 or NaN |
| `C135_covariance_fails`, `C135_product_fails`, `C135_many_fail` | mergesort method on `float16`: with an observation of the first sample times their number, a product of observations, or a number of observations of 65520 or more the squared distance covariance is infinite or NaN |
| `C136_large_fail`, `C136_unbiased_large_fail`, `C136_rowwise_differs` | row-wise covariance on `float16`: entries of 65520 or more are infinite; elsewhere they are accurate where the function itself returns infinity or NaN |
| `C137_left_fails`, `C137_right_fails`, `C137_unbiased_left_fails`, `C137_unbiased_right_fails`, `C137_self_fails` | row-wise correlation on `float16`: zero, without a warning, if a squared distance variance is 65520 or more, even for equal rows |
| `C137_infinite_fails`, `C137_equal_groups_fail` | row-wise correlation on `float16`: infinite, without a warning, if the squared distance variance of the first row is rounded to zero and the covariance is not |
| `C138_rowwise_differs` | row-wise correlation on `float32`: accurate where the function itself is not |

## Testing the theorems

`seeded/LOG.jsonl` records wrong programs: for each, one definition of the model is changed the way a realistic
bug would change it, everything is rebuilt in a scratch copy, theorems whose proofs break are replaced by
`sorry`, and `#print axioms` tells which property theorems depend on a broken proof. Where the English
claim became false but its theorem survived, the theorem was tightened (last field of the entry).

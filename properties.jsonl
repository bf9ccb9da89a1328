{"id": "C01", "title": "AVL method computes the definition", "statement": "distance_covariance_sqr and u_distance_covariance_sqr with method='avl' return, for two univariate samples of the same length n>3, exactly the value given by the definition of the (biased / bias-corrected) estimator on the |x_i-x_j| and |y_i-y_j| matrices, whatever order argsort gives to tied values.", "quantifier": "all n>3, all real samples x,y of length n (with or without ties), every valid argsort, biased and unbiased", "why_tests_cant": "Random inputs cannot cover every real sample, size and tie pattern; the dyadic index arithmetic changes shape at every power of two and the tie-breaking of an unstable sort is not controllable by a test.", "anchors": ["dcor/_fast_dcov_avl.py:_distance_covariance_sqr_terms_avl", "dcor/_fast_dcov_avl.py:_get_impl_args", "dcor/_fast_dcov_avl.py:_partial_sum_2d", "dcor/_dcor_internals.py:_dcov_from_terms"]}
{"id": "C02", "title": "MERGESORT method computes the definition", "statement": "distance_covariance_sqr and u_distance_covariance_sqr with method='mergesort' return, for two univariate samples of the same length, exactly the value of the defining double sum, whatever order argsort gives to tied values.", "quantifier": "all n>=1, all real samples x,y of length n, every valid argsort", "why_tests_cant": "Random inputs cannot cover every real sample, size and tie pattern; the bottom-up merge has different partial blocks for every n.", "anchors": ["dcor/_fast_dcov_mergesort.py:_compute_weight_sums", "dcor/_fast_dcov_mergesort.py:_compute_aijbij_term", "dcor/_fast_dcov_mergesort.py:_compute_row_sums", "dcor/_fast_dcov_mergesort.py:_distance_covariance_sqr_terms_mergesort"]}
{"id": "C03", "title": "The method argument never changes the answer", "statement": "For univariate samples of equal length n>3 and exponent 1, 'auto', 'naive', 'avl' and 'mergesort' return the same covariance, correlation and variances in all of the public covariance/correlation/stats functions.", "quantifier": "all univariate float samples, all four methods, 1-d or column shape", "why_tests_cant": "Random inputs cannot cover every real sample, size and tie pattern; agreement must hold for every sample, not only for the seeds tried.", "anchors": ["dcor/_dcor.py:_dcov_terms_auto", "dcor/_dcor.py:DistanceCovarianceMethod", "dcor/_dcor.py:_can_use_fast_algorithm"]}
{"id": "C04", "title": "Compiled and uncompiled AVL agree", "statement": "The compiled and the pure-Python AVL implementations return the same terms although they use two different inner loops.", "quantifier": "all samples of length n>3, every valid argsort", "why_tests_cant": "The two inner loops (sequential += versus buffered fancy-index +=) agree only because no two touched positions coincide; that is an all-sizes fact.", "anchors": ["dcor/_fast_dcov_avl.py:_dyad_update", "dcor/_fast_dcov_avl.py:_dyad_update_compiled_version"]}
{"id": "C05", "title": "AVL index arithmetic stays in bounds", "statement": "Every element read or written by the inner loops of the AVL method lies inside its buffer (numba compiles them without bounds checks), for every sample size.", "quantifier": "all n>3, every rank permutation, every loop iteration", "why_tests_cant": "Out-of-bounds access in compiled code is silent; tests see it only if it happens to corrupt a checked value.", "anchors": ["dcor/_fast_dcov_avl.py:_dyad_update_compiled_version", "dcor/_fast_dcov_avl.py:_dyad_update", "dcor/_fast_dcov_avl.py:_get_impl_args"]}
{"id": "C06", "title": "Merge loops terminate and stay in bounds", "statement": "The bottom-up merge of the mergesort method terminates, never reads or writes outside its buffers, and leaves the index buffer a permutation sorted by decreasing y, for every sample size.", "quantifier": "all n, all y, all weights", "why_tests_cant": "Same as above; block boundaries differ for each n.", "anchors": ["dcor/_fast_dcov_mergesort.py:_compute_weight_sums"]}
{"id": "C07", "title": "Stats agree with the individual functions", "statement": "The four fields of distance_stats_sqr / u_distance_stats_sqr equal distance_covariance_sqr(x,y), the ratio to the geometric mean of the variances (0 if that is 0), distance_covariance_sqr(x,x) and distance_covariance_sqr(y,y) (respectively the unbiased versions), for every method; in particular the 2 n^2 var(x) shortcut of the fast methods is exact.", "quantifier": "all samples, all methods, biased and unbiased", "why_tests_cant": "Random inputs cannot cover every real sample, size and tie pattern; the shortcut is an algebraic identity over all samples.", "anchors": ["dcor/_dcor.py:_DcovAlgorithmInternals.stats_sqr", "dcor/_fast_dcov_avl.py:_distance_covariance_sqr_terms_avl", "dcor/_fast_dcov_mergesort.py:_distance_covariance_sqr_terms_mergesort", "dcor/_dcor_internals.py:_dcov_terms_naive"]}
{"id": "C08", "title": "Biased estimator equals product of double centred matrices", "statement": "distance_covariance_sqr(x,y) equals mean_product of the double_centered distance matrices of x and y.", "quantifier": "all samples of any dimension, any n>=1, any exponent", "why_tests_cant": "An identity between two different computations over all inputs.", "anchors": ["dcor/_dcor_internals.py:_dcov_from_terms", "dcor/_dcor_internals.py:double_centered", "dcor/_dcor_internals.py:mean_product"]}
{"id": "C09", "title": "Unbiased estimator equals U-product of U-centred matrices", "statement": "u_distance_covariance_sqr(x,y) equals u_product of the u_centered distance matrices for every n>3.", "quantifier": "all samples of any dimension, any n>3, any exponent", "why_tests_cant": "An identity between two different computations over all inputs.", "anchors": ["dcor/_dcor_internals.py:_dcov_from_terms", "dcor/_dcor_internals.py:u_centered", "dcor/_dcor_internals.py:u_product"]}
{"id": "C10", "title": "Squared distance covariance is never negative", "statement": "distance_covariance_sqr(x,y) >= 0 for exponents in (0,2], so the clamping in distance_covariance never alters the value and distance_covariance(x,y)^2 = distance_covariance_sqr(x,y).", "quantifier": "all n>=1, all dimensions of x and of y, all real samples, all exponents in (0,2]", "why_tests_cant": "Non-negativity rests on a deep fact (Euclidean distance powers are of negative type) and cannot be sampled.", "anchors": ["dcor/_dcor.py:distance_covariance_sqr", "dcor/_dcor.py:distance_covariance", "dcor/_utils.py:_sqrt"]}
{"id": "C11", "title": "Distance correlation lies in [0,1]", "statement": "distance_correlation and distance_correlation_sqr lie in [0,1].", "quantifier": "all n>=1, all dimensions, all samples, all exponents in (0,2]", "why_tests_cant": "Range over all inputs.", "anchors": ["dcor/_dcor.py:distance_correlation", "dcor/_dcor.py:distance_correlation_sqr"]}
{"id": "C12", "title": "Bias-corrected correlation lies in [-1,1]", "statement": "u_distance_correlation_sqr lies in [-1,1] for n>3.", "quantifier": "all n>3, all dimensions, all samples, all exponents", "why_tests_cant": "Range over all inputs.", "anchors": ["dcor/_dcor.py:u_distance_correlation_sqr"]}
{"id": "C13", "title": "Zero distance variance exactly for constant samples", "statement": "distance_covariance_sqr(x,x)=0 if and only if all observations of x are equal; then every correlation with x is reported as 0 rather than NaN.", "quantifier": "all n>=1, all dimensions, all samples, exponent>0", "why_tests_cant": "'If and only if' over all samples.", "anchors": ["dcor/_dcor.py:_DcovAlgorithmInternals.stats_sqr", "dcor/_dcor.py:distance_correlation"]}
{"id": "C14", "title": "Self correlation is one", "statement": "distance_correlation(x,x)=1 for every non-constant sample; u_distance_correlation_sqr(x,x)=1 whenever the unbiased variance is non-zero.", "quantifier": "all non-constant samples", "why_tests_cant": "Universal claim.", "anchors": ["dcor/_dcor.py:distance_correlation", "dcor/_dcor.py:u_distance_correlation_sqr"]}
{"id": "C15", "title": "Correlation one exactly for proportional distances", "statement": "For non-constant x and y, distance_correlation(x,y)=1 if and only if the distance matrix of x is a positive multiple of that of y.", "quantifier": "all non-constant samples of any dimensions, exponent in (0,2]", "why_tests_cant": "'If and only if' over all samples.", "anchors": ["dcor/_dcor.py:distance_correlation"]}
{"id": "C16", "title": "Symmetry in the two samples", "statement": "Swapping x and y leaves every covariance and correlation function unchanged and swaps the two variances of the stats functions.", "quantifier": "all samples, methods naive/auto/avl/mergesort", "why_tests_cant": "Universal claim; the fast methods sort by x and treat x and y asymmetrically.", "anchors": ["dcor/_dcor.py:distance_covariance_sqr", "dcor/_dcor.py:distance_stats_sqr"]}
{"id": "C17", "title": "Invariance under reordering the observations", "statement": "Applying the same permutation to the observations of x and y leaves all covariance, correlation and variance values unchanged.", "quantifier": "all samples, all permutations, all methods", "why_tests_cant": "n! permutations of every sample.", "anchors": ["dcor/_dcor.py:distance_covariance_sqr", "dcor/_dcor.py:distance_correlation"]}
{"id": "C18", "title": "Invariance under isometries and scaling", "statement": "Translating or orthogonally transforming x leaves the statistics unchanged; multiplying x by c multiplies the squared covariance by |c|^exponent and, for c != 0, leaves the correlations unchanged.", "quantifier": "all samples, all translations, all orthogonal maps, all scalars", "why_tests_cant": "Universal claim over a continuum of transformations.", "anchors": ["dcor/_dcor.py:distance_covariance_sqr", "dcor/_dcor.py:distance_correlation"]}
{"id": "C19", "title": "Small samples give NaN, not a crash, in the unbiased estimator", "statement": "For floating point samples with n<=3, u_distance_covariance_sqr (auto/naive/mergesort) and u_distance_correlation_sqr return NaN, never a finite number or an exception, and method='avl' raises AssertionError.", "quantifier": "all samples with n in {1,2,3} (and empty samples in the naive method)", "why_tests_cant": "All real samples at the excluded sizes.", "anchors": ["dcor/_dcor_internals.py:_dcov_from_terms", "dcor/_fast_dcov_avl.py:_get_impl_args"]}
{"id": "C20", "title": "Affine invariance", "statement": "distance_correlation_af_inv(x,y) is unchanged when x is replaced by x M + b with M invertible, provided the covariance matrix of x is non-singular; for whitened data the result does not depend on the eigenvectors chosen by eigh.", "quantifier": "all samples with non-singular covariance, all invertible M, all b, every valid eigendecomposition", "why_tests_cant": "Continuum of transformations and of eigenbases.", "anchors": ["dcor/_dcor.py:distance_correlation_af_inv_sqr", "dcor/_dcor_internals.py:_af_inv_scaled", "dcor/_dcor_internals.py:_mat_sqrt_inv", "dcor/_dcor_internals.py:_cov"]}
{"id": "C21", "title": "double_centered output is centred", "statement": "Every row and column of double_centered(a) sums to zero for every symmetric a, the result is symmetric, equals the documented formula, and centring twice equals centring once.", "quantifier": "all n, all symmetric matrices", "why_tests_cant": "Universal over matrices.", "anchors": ["dcor/_dcor_internals.py:double_centered", "dcor/_dcor_internals.py:_symmetric_matrix_sums"]}
{"id": "C22", "title": "u_centered output is U-centred", "statement": "For n>=3 u_centered(a) has zero diagonal and, if a is symmetric with zero diagonal, every row and column sums to zero and U-centring twice equals once; for n<=2 the off-diagonal entries are not finite and the diagonal is still 0.", "quantifier": "all n, all symmetric matrices", "why_tests_cant": "Universal over matrices.", "anchors": ["dcor/_dcor_internals.py:u_centered"]}
{"id": "C23", "title": "out= writes in place and only there", "statement": "double_centered/u_centered with out=None leave every existing array untouched and return a fresh array; with out=a they overwrite a with the same values; with another out they overwrite only out.", "quantifier": "all matrices, all heaps, all aliasing choices among out=None, out=a, out=other", "why_tests_cant": "Aliasing must be safe for every input.", "anchors": ["dcor/_dcor_internals.py:_float_copy_to_out", "dcor/_dcor_internals.py:double_centered", "dcor/_dcor_internals.py:u_centered"]}
{"id": "C24", "title": "u_product is an inner product", "statement": "For n>3 u_product is symmetric, bilinear and positive (u_product(a,a)>=0 with equality only for a=0); for n=3 it divides by zero and returns an infinity or NaN.", "quantifier": "all n, all square matrices", "why_tests_cant": "Universal over matrices.", "anchors": ["dcor/_dcor_internals.py:u_product"]}
{"id": "C25", "title": "Projections are orthogonal projections", "statement": "u_projection(a) is linear, idempotent, maps into the span of a and fixes a; u_complementary_projection(a)(b) is orthogonal to a, idempotent, and the two parts add to b, also when <a,a>=0.", "quantifier": "all n>3, all matrices a, b", "why_tests_cant": "Universal over matrices.", "anchors": ["dcor/_dcor_internals.py:u_projection", "dcor/_dcor_internals.py:u_complementary_projection"]}
{"id": "C26", "title": "Partial distance covariance formula", "statement": "partial_distance_covariance(x,y,z) is symmetric in x,y, equals <x,y> - <x,z><y,z>/<z,z> in U-products, and equals u_distance_covariance_sqr(x,y) when z is constant (or has zero unbiased variance).", "quantifier": "all n>3, all samples of any dimensions", "why_tests_cant": "Universal claim.", "anchors": ["dcor/_partial_dcor.py:partial_distance_covariance"]}
{"id": "C27", "title": "Partial distance correlation is the normalised projection product", "statement": "partial_distance_correlation(x,y,z) equals the cosine of the complementary projections of x and y (0 if one vanishes), so clipping never changes it, and lies in [-1,1].", "quantifier": "all n>3, all samples of any dimensions", "why_tests_cant": "Universal claim relating two different formulas.", "anchors": ["dcor/_partial_dcor.py:partial_distance_correlation"]}
{"id": "C28", "title": "Degenerate partial correlations", "statement": "partial_distance_correlation(x,z,z)=0, and partial_distance_correlation(x,x,z)=1 unless x is a U-multiple of z, when it is 0.", "quantifier": "all n>3, all samples", "why_tests_cant": "Universal claim.", "anchors": ["dcor/_partial_dcor.py:partial_distance_correlation"]}
{"id": "C29", "title": "pairwise_distances orientation", "statement": "pairwise_distances(x,y) returns an n x l matrix whose (i,j) entry is the distance between x[i] and y[j] raised to exponent.", "quantifier": "all n,l,m, all point sets, both the SciPy and the array-API path", "why_tests_cant": "Square symmetric examples hide a transposition.", "anchors": ["dcor/distances.py:pairwise_distances", "dcor/distances.py:_cdist_naive", "dcor/distances.py:_cdist_scipy"]}
{"id": "C30", "title": "Distance matrices are distance matrices", "statement": "pairwise_distances(x) is symmetric, non-negative, zero on the diagonal for exponent>0, zero off the diagonal only for equal points, and satisfies the triangle inequality for exponent in (0,1]; both computation paths give the same matrix.", "quantifier": "all point sets, exponents", "why_tests_cant": "Universal claim.", "anchors": ["dcor/distances.py:pairwise_distances", "dcor/distances.py:_pdist_scipy", "dcor/distances.py:_cdist_naive"]}
{"id": "C31", "title": "Energy distance is a non-negative symmetric divergence", "statement": "The V-statistic energy_distance(x,y) is symmetric, >=0 for exponents in (0,2], and 0 when y is a reordering of x.", "quantifier": "all sample sizes, dimensions, samples, exponents in (0,2]", "why_tests_cant": "Needs negative type of Euclidean distances.", "anchors": ["dcor/_energy.py:energy_distance", "dcor/_energy.py:_energy_distance_from_distance_matrices"]}
{"id": "C32", "title": "U-statistic excludes self distances", "statement": "With estimation_stat U the within-sample averages are exactly the averages over pairs of different observations; U differs from V by the documented diagonal effect, so U <= V.", "quantifier": "all samples with at least two observations each", "why_tests_cant": "Universal claim.", "anchors": ["dcor/_energy.py:_get_flat_upper_matrix", "dcor/_energy.py:_energy_distance_from_distance_matrices"]}
{"id": "C33", "title": "Estimation statistic parsing", "statement": "from_string maps exactly the case-insensitive spellings u, u_statistic to U and v, v_statistic to V and raises KeyError for any other string; strings and enum members are interchangeable.", "quantifier": "all ASCII strings", "why_tests_cant": "Infinite set of strings.", "anchors": ["dcor/_energy.py:EstimationStatistic.from_string"]}
{"id": "C34", "title": "Invalid exponents warn", "statement": "A warning is issued exactly when the exponent is outside the open interval (0,2), by the naive covariance functions and by the energy functions, and the computation still proceeds.", "quantifier": "all real exponents", "why_tests_cant": "Boundary over the continuum.", "anchors": ["dcor/_dcor_internals.py:_check_valid_dcov_exponent", "dcor/_energy.py:_check_valid_energy_exponent"]}
{"id": "C35", "title": "Energy distance transforms like a distance", "statement": "energy_distance is invariant under a common isometry, scales by |c|^exponent under a common scaling, and is invariant under reordering either sample.", "quantifier": "all samples, isometries, scalars, permutations", "why_tests_cant": "Universal claim.", "anchors": ["dcor/_energy.py:energy_distance"]}
{"id": "C36", "title": "p-values of permutation tests are well formed", "statement": "For every statistic and every RNG the p-value equals (k+1)/(B+1) with k the number of resampled statistics strictly above the observed one; it lies in [1/(B+1),1] and is 1 when B=0.", "quantifier": "all matrices, statistics, RNGs, B>=0", "why_tests_cant": "All RNG streams.", "anchors": ["dcor/_hypothesis.py:_permutation_test_with_sym_matrix"]}
{"id": "C37", "title": "The reported statistic does not depend on resampling", "statement": "statistic of distance_covariance_test is n*distance_covariance_sqr(x,y), of partial_distance_covariance_test n*partial distance covariance, of energy_test the energy statistic, independently of num_resamples, random_state and n_jobs.", "quantifier": "all samples, B, RNG states, n_jobs", "why_tests_cant": "All RNG streams and parallel settings.", "anchors": ["dcor/independence.py:distance_covariance_test", "dcor/independence.py:partial_distance_covariance_test", "dcor/homogeneity.py:energy_test"]}
{"id": "C38", "title": "Parallel execution does not change the result", "statement": "The p-value and statistic are the same for every n_jobs, i.e. for every order in which the workers finish.", "quantifier": "all completion orders of all B tasks", "why_tests_cant": "Schedules cannot be enumerated.", "anchors": ["dcor/_hypothesis.py:_permutation_test_with_sym_matrix"]}
{"id": "C39", "title": "Random state use", "statement": "A test draws exactly B permutations, each of exactly the number of rows, in order from the given generator; the same generator state gives the same result; seeds and instances are interchangeable.", "quantifier": "all RNG state machines, B, sizes", "why_tests_cant": "All RNG streams.", "anchors": ["dcor/_hypothesis.py:_permutation_test_with_sym_matrix", "dcor/_utils.py:_random_state_init"]}
{"id": "C40", "title": "Permutation tests are valid", "statement": "Under the null hypothesis (all relabellings of the first sample equally likely) the probability of pvalue <= k/(B+1) is at most k/(B+1).", "quantifier": "all data, all B, all k, uniform random permutations", "why_tests_cant": "A statement about a probability over all permutations.", "anchors": ["dcor/_hypothesis.py:_permutation_test_with_sym_matrix"]}
{"id": "C41", "title": "Permuting the matrix is permuting the sample", "statement": "Each resampled statistic of distance_covariance_test equals the statistic of the sample with the observations of x permuted; likewise each resampled energy_test statistic equals the statistic of the relabelled pooled sample.", "quantifier": "all samples and permutations", "why_tests_cant": "n! permutations of every sample.", "anchors": ["dcor/_hypothesis.py:_permuted_statistic", "dcor/independence.py:distance_covariance_test", "dcor/homogeneity.py:energy_test"]}
{"id": "C42", "title": "energy_test agrees with energy_test_statistic", "statement": "For two samples the statistic of energy_test equals energy_test_statistic(x,y); for k samples it is the sum of the two-sample statistics over all pairs; with fewer than two samples it fails.", "quantifier": "all numbers and sizes of samples, U and V statistics", "why_tests_cant": "Slicing arithmetic for all sizes.", "anchors": ["dcor/homogeneity.py:_energy_test_statistic_multivariate_from_distance_matrix", "dcor/homogeneity.py:energy_test", "dcor/homogeneity.py:energy_test_statistic"]}
{"id": "C43", "title": "t statistic", "statement": "distance_correlation_t_statistic is a strictly increasing odd function of the bias-corrected correlation for fixed n>3, is +inf at correlation 1 (then p-value 0), and the p-value lies in [0,1] and decreases with the statistic.", "quantifier": "all samples n>3, any t cdf with the usual properties", "why_tests_cant": "Universal claim.", "anchors": ["dcor/independence.py:distance_correlation_t_statistic", "dcor/independence.py:distance_correlation_t_test"]}
{"id": "C44", "title": "Samples of different length are rejected", "statement": "Passing samples with different numbers of observations raises an exception in every covariance/correlation function and in distance_covariance_test.", "quantifier": "all samples x,y with different n, all methods", "why_tests_cant": "All length pairs.", "anchors": ["dcor/_dcor_internals.py:_check_same_n_elements", "dcor/_fast_dcov_avl.py:_get_impl_args", "dcor/_fast_dcov_mergesort.py:_distance_covariance_sqr_terms_mergesort", "dcor/_dcor_internals.py:_dcov_terms_naive"]}
{"id": "C45", "title": "Unsupported options are rejected before computing", "statement": "Fast methods with exponent != 1 raise ValueError, with non-univariate data AssertionError, with non-NumPy arrays ValueError; unsupported compile modes raise NotImplementedError; unknown method names raise KeyError; 'auto' never raises ValueError because of exponent or namespace.", "quantifier": "all exponents, shapes, namespaces, compile modes, method strings", "why_tests_cant": "All combinations and all strings.", "anchors": ["dcor/_fast_dcov_avl.py:_distance_covariance_sqr_terms_avl", "dcor/_fast_dcov_mergesort.py:_distance_covariance_sqr_terms_mergesort", "dcor/_dcor_internals.py:_dcov_terms_naive", "dcor/_dcor.py:_to_algorithm"]}
{"id": "C46", "title": "Fallback to the uncompiled implementation", "statement": "With compile mode AUTO a fast method never fails because of the dtype: it falls back to the uncompiled implementation with a warning and returns the same value.", "quantifier": "all dtype combinations and samples", "why_tests_cant": "All dtype/value combinations.", "anchors": ["dcor/_fast_dcov_avl.py:_distance_covariance_sqr_terms_avl", "dcor/_fast_dcov_mergesort.py:_distance_covariance_sqr_terms_mergesort"]}
{"id": "C47", "title": "rowwise equals mapping the function", "statement": "rowwise(f,x,y) equals the array of f(x[i],y[i]) in every rowwise mode in which it returns, for all six functions that have an optimised implementation.", "quantifier": "all lists of samples, modes, compile modes", "why_tests_cant": "Universal claim.", "anchors": ["dcor/_rowwise.py:rowwise", "dcor/_rowwise.py:_generate_rowwise_distance_correlation_sqr", "dcor/_fast_dcov_avl.py:_rowwise_distance_covariance_sqr_avl_generic"]}
{"id": "C48", "title": "rowwise modes", "statement": "OPTIMIZED raises NotImplementedError exactly when no optimised implementation applies, NAIVE never uses it, AUTO silently falls back.", "quantifier": "all functions, inputs and modes", "why_tests_cant": "Decision logic over all inputs.", "anchors": ["dcor/_rowwise.py:rowwise"]}
{"id": "C49", "title": "Integer samples are exact while the terms fit", "statement": "For int64 samples the uncompiled fast methods return the exact terms whenever the exact final terms fit in 64 bits, even if intermediate results wrap around; outside that range the result can be wrong.", "quantifier": "all int64 samples", "why_tests_cant": "Wrap-around depends on all values jointly.", "anchors": ["dcor/_fast_dcov_avl.py:_distance_covariance_sqr_terms_avl", "dcor/_fast_dcov_mergesort.py:_compute_aijbij_term"]}
{"id": "C50", "title": "Unsigned integer samples", "statement": "pairwise_distances on w-bit unsigned integer data equals the distance of the integer points.", "quantifier": "all w-bit unsigned point sets", "why_tests_cant": "All values.", "anchors": ["dcor/distances.py:_cdist_naive", "dcor/_utils.py:_can_be_numpy_double"]}
{"id": "C51", "title": "Distance functions are square roots of the squared ones", "statement": "distance_covariance, distance_correlation, distance_correlation_af_inv and all fields of distance_stats are the non-negative square roots of their _sqr counterparts, negative inputs being replaced by zero; NaN stays NaN.", "quantifier": "all inputs", "why_tests_cant": "Universal claim.", "anchors": ["dcor/_utils.py:_sqrt", "dcor/_dcor.py:distance_stats"]}
{"id": "C52", "title": "1-d and column inputs are equivalent", "statement": "A vector and the corresponding one-column matrix give the same result in all functions.", "quantifier": "all univariate samples", "why_tests_cant": "Universal claim.", "anchors": ["dcor/_utils.py:_transform_to_1d", "dcor/_utils.py:_transform_to_2d"]}
{"id": "C53", "title": "Inputs are never modified", "statement": "No public statistic modifies the arrays passed by the user.", "quantifier": "all inputs and heaps", "why_tests_cant": "Aliasing over all inputs.", "anchors": ["dcor/_utils.py:_sqrt", "dcor/_dcor_internals.py:_distance_matrix_generic", "dcor/_dcor_internals.py:_mat_sqrt_inv"]}
{"id": "C54", "title": "Energy distance zero only for equal samples", "statement": "For exponents in (0,2) the V-statistic energy_distance(x,y)=0 only if x and y have the same empirical distribution.", "quantifier": "all sample sizes, dimensions and samples", "why_tests_cant": "Converse direction over all inputs.", "anchors": ["dcor/_energy.py:energy_distance"]}
{"id": "C55", "title": "Zero distance covariance exactly for independent samples", "statement": "For exponents in (0,2), distance_covariance(x,y)=0, equivalently distance_correlation(x,y)=0, exactly when the empirical joint distribution of the pairs (x_i,y_i) is the product of its marginals.", "quantifier": "all samples x,y of equal length n>0 in any dimensions, all exponents in (0,2), all supported methods", "why_tests_cant": "The 'only if' direction quantifies over all samples; it is the defining feature of distance covariance and fails silently if a term of the estimator is wrong for some configurations only.", "anchors": ["dcor/_dcor.py:440-1041", "dcor/_dcor_internals.py:130-173"]}
{"id": "C56", "title": "Partial functions reject samples of different lengths", "statement": "partial_distance_covariance and partial_distance_correlation raise an exception when the three samples do not have the same number of observations.", "quantifier": "all triples of array arguments whose first dimensions are not all equal", "why_tests_cant": "There are infinitely many combinations of shapes and NumPy broadcasting silently accepts some of them; a test only samples a few.", "anchors": ["dcor/_partial_dcor.py:81-87", "dcor/_partial_dcor.py:149-174", "dcor/_dcor_internals.py:455-460"]}
{"id": "C57", "title": "An undefined test statistic must not look significant", "statement": "If the observed statistic of a permutation test is NaN the reported p-value must not be the smallest possible one. (The code violates this: a NaN statistic always gives the p-value 1/(B+1).) The statistic of supported calls of distance_covariance_test, partial_distance_covariance_test and energy_test with V-statistics is a number.", "quantifier": "all matrices, statistics, generators and numbers of resamples", "why_tests_cant": "Statement about all generators; the failing inputs are degenerate samples that tests do not use.", "anchors": ["dcor/_hypothesis.py:_permutation_test_with_sym_matrix", "dcor/homogeneity.py:energy_test"]}
{"id": "C58", "title": "Affinely invariant correlation is the correlation of whitened data", "statement": "distance_correlation_af_inv(x,y) equals distance_correlation(x',y') for every pair of invertible affine images x', y' of the samples whose components are uncorrelated with unit variance; for univariate samples it equals distance_correlation(x,y).", "quantifier": "all samples with non-singular covariance (all samples in the univariate case), all whitening maps, every valid eigendecomposition", "why_tests_cant": "Continuum of samples and of whitening maps.", "anchors": ["dcor/_dcor.py:distance_correlation_af_inv_sqr", "dcor/_dcor_internals.py:_af_inv_scaled", "dcor/_dcor_internals.py:_mat_sqrt_inv", "dcor/_dcor_internals.py:_cov"]}
{"id": "C59", "title": "Range and extreme values of the affinely invariant correlation", "statement": "distance_correlation_af_inv(x,y) lies in [0,1] and is the square root of the squared version; it is one when y is an invertible affine image of a non-constant x.", "quantifier": "all samples with at least two observations, all invertible matrices and translations, every valid eigendecomposition", "why_tests_cant": "Continuum of samples and transformations.", "anchors": ["dcor/_dcor.py:distance_correlation_af_inv", "dcor/_dcor.py:distance_correlation_af_inv_sqr", "dcor/_dcor_internals.py:_af_inv_scaled"]}
{"id": "C60", "title": "Results do not share memory with the arguments", "statement": "The array returned by a public function is in newly allocated memory, so modifying the result never changes the user's data, nor the other way round.", "quantifier": "all inputs, heaps and executions", "why_tests_cant": "Aliasing depends on the path taken (views returned by asarray, reshape, slicing) and on how the inputs overlap.", "anchors": ["dcor/_dcor_internals.py:_distance_matrix_generic", "dcor/_rowwise.py:rowwise", "dcor/distances.py:pairwise_distances"]}
{"id": "C61", "title": "Exponent two reduces to classical statistics", "statement": "With exponent 2, distance_covariance_sqr is four times the sum of the squared covariances of all pairs of components, distance_correlation of scalar samples is the absolute value of Pearson's correlation, and energy_distance is twice the squared distance between the means; so dependent samples such as y = x^2 can have distance correlation zero.", "quantifier": "all supported calls with exponent 2, all sample sizes and dimensions", "why_tests_cant": "An identity of real functions over all samples, dimensions and methods; a test sees finitely many points and only up to a tolerance.", "anchors": ["dcor/_dcor.py:distance_covariance_sqr", "dcor/_dcor.py:distance_correlation", "dcor/_energy.py:energy_distance"]}
{"id": "C62", "title": "Two-valued samples and group labels", "statement": "If both samples take only two values, distance_correlation is the absolute value of the Pearson (phi) coefficient for every non-zero exponent. The squared distance covariance between a pooled sample and its two group labels a, b is 2 |a-b|^alpha (nm/(n+m)^2)^2 times the energy_distance between the groups, so the two modules of the package agree.", "quantifier": "all two-valued samples, all exponents other than zero, all methods; all pairs of groups of any sizes and dimensions", "why_tests_cant": "Relates two independently written modules for all samples and a continuum of exponents.", "anchors": ["dcor/_dcor.py:distance_correlation", "dcor/_dcor.py:distance_covariance_sqr", "dcor/_energy.py:energy_distance"]}
{"id": "C63", "title": "Averages over all relabellings", "statement": "Averaged over all n! relabellings of one sample, u_distance_covariance_sqr is exactly zero while distance_covariance_sqr is the product of the mean distances divided by n-1; averaged over all relabellings of the pooled sample, the U-statistic energy distance is exactly zero and the V-statistic is (1/n+1/m) times the mean distance. So the bias-corrected estimators are centred under the null hypothesis of the permutation tests.", "quantifier": "all samples, sizes (n > 3 resp. n, m >= 2 for the corrected estimators), dimensions and non-zero exponents", "why_tests_cant": "n! relabellings of every sample; Monte Carlo tests only see it up to noise.", "anchors": ["dcor/_dcor.py:u_distance_covariance_sqr", "dcor/_dcor.py:distance_covariance_sqr", "dcor/_energy.py:energy_distance"]}
{"id": "C64", "title": "The corrected estimators are unbiased", "statement": "For samples drawn with replacement from any finite population of pairs, the expected value of u_distance_covariance_sqr is exactly the distance_covariance_sqr of the population; for samples from two populations the expected U-statistic energy distance is their energy distance. The average of u_distance_covariance_sqr over the leave-one-out samples is its value for the full sample.", "quantifier": "all finite populations, sample sizes n > 3 (n, m >= 2 for the energy distance), dimensions and exponents", "why_tests_cant": "An expectation over N^n samples for every population; simulation has sampling error.", "anchors": ["dcor/_dcor.py:u_distance_covariance_sqr", "dcor/_energy.py:energy_distance"]}
{"id": "C65", "title": "The fast methods never leave their arrays", "statement": "For samples of equal length the AVL method (interpreted or compiled by Numba, which does not check indices) and the mergesort method read and write only inside their arrays and return a value, whatever the floating-point contents: NaN, infinities, ties, overflow and any rounding, and whatever permutation argsort returns.", "quantifier": "all lengths (n > 3 for AVL, which is what the code requires), all contents, every arithmetic and comparison, compiled or not", "why_tests_cant": "An out-of-bounds access in compiled code is silent, and the set of float arrays with NaN in arbitrary places is not enumerable.", "anchors": ["dcor/_fast_dcov_avl.py", "dcor/_fast_dcov_mergesort.py"]}
{"id": "C66", "title": "Integers in float64: the methods agree bit for bit", "statement": "For integer-valued samples (counts, ranks, labels) with n^2 max|x| max|y| <= 2^49, every sum computed by the naive, AVL and mergesort methods in float64 is exact, in whatever order NumPy adds; so AVL and naive return bit-for-bit the same distance covariance (biased or bias-corrected), and mergesort returns that of the naive method for the observations sorted by x.", "quantifier": "all integer samples within the bound, all n, all summation orders, compiled or not, both estimators", "why_tests_cant": "Bitwise equality over all integer samples and all orders of summation a NumPy build may choose.", "anchors": ["dcor/_fast_dcov_avl.py", "dcor/_fast_dcov_mergesort.py", "dcor/_dcor.py:distance_covariance_sqr"]}
{"id": "C67", "title": "Constant samples give exactly zero in float64", "statement": "If one of the samples is constant, the squared distance covariance, the squared distance correlation and the distance variance of the constant sample computed in float64 are exactly zero (not merely small), with every method.", "quantifier": "all constants, all second samples, all n, p, q, both estimators, all summation orders", "why_tests_cant": "Whether rounding errors cancel depends on the constant and on the order of the sums; tests use integer-valued constants, for which there is no rounding.", "anchors": ["dcor/_dcor.py:distance_covariance_sqr", "dcor/_dcor.py:distance_correlation_sqr", "dcor/_fast_dcov_avl.py"]}
{"id": "C68", "title": "Exact translations and reflections do not change float64 results", "statement": "Translating the samples by an amount that floating-point numbers represent exactly, or flipping the sign of components, does not change the statistics computed in float64, with every method.", "quantifier": "all samples, all translations for which x+c is exactly representable, all sign patterns, both estimators", "why_tests_cant": "Bitwise invariance over all samples and all offsets; cancellation only appears for offsets that are large compared to the spread.", "anchors": ["dcor/_dcor.py:distance_stats_sqr", "dcor/_fast_dcov_avl.py", "dcor/distances.py:pairwise_distances"]}
{"id": "C69", "title": "A sample has float64 correlation exactly one with itself", "statement": "The squared distance correlation of a sample with itself computed in float64 is exactly 1 whenever its distance variance is positive, with every method.", "quantifier": "all samples, all n and p, both estimators, every correctly rounded square root and every summation order", "why_tests_cant": "Tests compare with a tolerance and only on well scaled samples.", "anchors": ["dcor/_dcor.py:distance_correlation_sqr", "dcor/_dcor.py:_DcovAlgorithmInternals.stats_sqr"]}
{"id": "C70", "title": "Symmetry bit for bit", "statement": "Swapping the samples returns bit-for-bit the same squared distance covariance and correlation in float64, and swaps the variances.", "quantifier": "all samples, all n, p, q, both estimators", "why_tests_cant": "Tests compare with a tolerance; the difference is in the last bit and depends on n.", "anchors": ["dcor/_dcor_internals.py:_dcov_from_terms", "dcor/_dcor.py:distance_covariance_sqr"]}
{"id": "C71", "title": "Changing units by powers of two is exact in float64", "statement": "Multiplying the samples by 2^i and 2^j multiplies the float64 squared covariance by exactly 2^(i+j), the variances by 4^i and 4^j, and leaves the squared correlation bit-for-bit unchanged, for naive, AVL and mergesort, as long as nothing overflows or underflows.", "quantifier": "all samples, all integers i and j, all three methods, compiled or not, both estimators, every summation order that does not depend on the data", "why_tests_cant": "Bitwise equality for all samples and all scales.", "anchors": ["dcor/_fast_dcov_avl.py", "dcor/_fast_dcov_mergesort.py", "dcor/_dcor_internals.py:_dcov_from_terms"]}
{"id": "C72", "title": "Rounding errors are small compared to the distances", "statement": "The squared distance covariance and variances computed in float64 differ from the mathematical values by at most c*n^2*2^-53 times the product of the largest distances within the samples, however large the samples themselves are, with every method and both estimators.", "quantifier": "all samples of floating-point vectors, all n, p, q with n^2+4n+max(p,q)+16 at most 2^53, both estimators, every order of the sums, every use of fused multiply-add", "why_tests_cant": "An error bound over all samples; tests compare a few well scaled samples with a tolerance.", "anchors": ["dcor/_dcor.py:distance_stats_sqr", "dcor/_dcor_internals.py:_naive_terms", "dcor/_dcor_internals.py:_dcov_from_terms", "dcor/_fast_dcov_avl.py"]}
{"id": "C73", "title": "The fast methods are accurate relative to the magnitude of the samples", "statement": "The squared distance covariance and variances computed in float64 by the AVL method differ from the mathematical values by at most c*n*2^-53 times max|x|*max|y|, and those computed by the mergesort method by at most c*n*log2(n)*2^-53 times max|x|*max|y|, for both estimators.", "quantifier": "all samples of floating-point numbers, all n up to 2^50, compiled or interpreted, both estimators, every order of the sums, any sorting function", "why_tests_cant": "An error bound over all samples and sizes; tests compare a few samples with a tolerance.", "anchors": ["dcor/_fast_dcov_avl.py:_distance_covariance_sqr_terms_avl_impl", "dcor/_fast_dcov_mergesort.py:_compute_weight_sums", "dcor/_dcor_internals.py:_dcov_from_terms"]}
{"id": "C74", "title": "The permutation tests do not depend on units and coordinates", "statement": "Multiplying all distances within a sample by a positive factor (change of units, translation, rotation, embedding in another dimension) does not change the p-value of the distance covariance test, the partial distance covariance test or the energy test for the same random state; the statistic is multiplied by the factors raised to the exponent. For the first two tests each sample may have its own factor.", "quantifier": "all samples, all similarities, all exponents, any random generator and state, any number of resamples and jobs, any number of samples and both estimators for the energy test", "why_tests_cant": "Universal over samples, transformations and random states.", "anchors": ["dcor/independence.py:distance_covariance_test", "dcor/independence.py:partial_distance_covariance_test", "dcor/homogeneity.py:energy_test", "dcor/_hypothesis.py:_permutation_test_with_sym_matrix"]}
{"id": "C75", "title": "Perfectly dependent samples get the smallest p-value", "statement": "If the distances within x are proportional to those within y (for instance y is x in other units), the distance covariance test and the partial distance covariance test return exactly 1/(num_resamples+1).", "quantifier": "all samples with proportional distances, any third sample, any random generator, any number of resamples and jobs", "why_tests_cant": "Holds whatever permutations are drawn; a test draws some of them.", "anchors": ["dcor/independence.py:distance_covariance_test", "dcor/independence.py:partial_distance_covariance_test", "dcor/_hypothesis.py:_permutation_test_with_sym_matrix"]}
{"id": "C76", "title": "The biased statistics only depend on relative frequencies", "statement": "distance_covariance(_sqr), distance_correlation(_sqr), distance_stats_sqr and the V-statistic energy_distance depend only on the relative frequencies of the observed pairs (of the values of each sample, for the energy distance): repeating every observation r times, in any order and with any method, changes nothing.", "quantifier": "all pairs of samples of any two sizes with the same relative frequencies, all exponents, all supported methods", "why_tests_cant": "Universal over samples, sizes and multiplicities.", "anchors": ["dcor/_dcor.py:distance_covariance_sqr", "dcor/_dcor.py:distance_correlation_sqr", "dcor/_energy.py:energy_distance"]}
{"id": "C77", "title": "Small changes of the data make small changes of the statistics", "statement": "If no observation of x moves by more than d, distance_covariance_sqr(x,y) changes by at most (2d)^exponent times distance_covariance(y,y), distance_covariance(x,x) changes by at most (2d)^exponent, u_distance_covariance_sqr(x,y) by at most sqrt((n-1)/(n-3)) (2d)^exponent sqrt(u_distance_covariance_sqr(y,y)), and, if the observations of y move by at most f, the V-statistic energy_distance by at most 2(d+f)^exponent+(2d)^exponent+(2f)^exponent.", "quantifier": "all samples, all perturbations, all exponents in (0,1], all supported methods", "why_tests_cant": "A modulus of continuity over all samples and perturbations.", "anchors": ["dcor/_dcor.py:distance_covariance_sqr", "dcor/_dcor.py:u_distance_covariance_sqr", "dcor/_energy.py:energy_distance"]}
{"id": "C78", "title": "The square root of the energy distance is a metric", "statement": "sqrt(energy_distance(x,z)) <= sqrt(energy_distance(x,y)) + sqrt(energy_distance(y,z)) for the V-statistic; together with C31 and C54 it is a metric between empirical distributions. The energy distance itself does not satisfy the triangle inequality.", "quantifier": "all samples of any sizes and dimension, exponents in (0,2]", "why_tests_cant": "Universal inequality over triples of samples.", "anchors": ["dcor/_energy.py:energy_distance", "dcor/_energy.py:_energy_distance_from_distance_matrices"]}
{"id": "C79", "title": "Exact facts about the energy distance in float64", "statement": "In float64, for any order of the sums: energy_distance(x,x) and energy_test_statistic(x,x) (V-statistic) are exactly zero; adding to both samples the same constants, exactly, or changing signs of columns changes no bit of energy_distance and energy_test_statistic; multiplying both samples by a power of two multiplies both results by it exactly.", "quantifier": "all samples of any sizes and dimension, exponent 1, both statistics, no overflow or underflow", "why_tests_cant": "Exact equality of floating-point results over all inputs.", "anchors": ["dcor/_energy.py:energy_distance", "dcor/_energy.py:_energy_distance_from_distance_matrices", "dcor/homogeneity.py:energy_test_statistic"]}
{"id": "C80", "title": "Accuracy of the energy distance in float64", "statement": "If no two observations are at a distance greater than D, energy_distance is within 8(max(n,m)^2+p+10) 2^-53 D of the exact value, and energy_test_statistic within 8(max(n,m)^2+p+15) 2^-53 D nm/(n+m), for the U- and V-statistics, whatever the magnitude of the samples.", "quantifier": "all samples of any sizes and dimension, exponent 1, any order of the sums, no overflow or underflow", "why_tests_cant": "An error bound over all inputs.", "anchors": ["dcor/_energy.py:energy_distance", "dcor/homogeneity.py:energy_test_statistic", "dcor/distances.py:_cdist_scipy"]}
{"id": "C81", "title": "Symmetry and sign of the energy distance in float64", "statement": "In float64 the V-statistic satisfies energy_distance(x,y) == energy_distance(y,x) and energy_distance(x,y) >= 0.", "quantifier": "all samples of any sizes and dimension, exponent 1, no overflow or underflow", "why_tests_cant": "Universal over floating-point inputs; the exceptions are rare.", "anchors": ["dcor/_energy.py:energy_distance", "dcor/_energy.py:_energy_distance_from_distance_matrices"]}
{"id": "C82", "title": "The average argument of the energy functions", "statement": "energy_distance(x,y,average=f) is 2 f(D_xy) - f(D_xx) - f(D_yy), with all distances within the samples for the V-statistic and those of the pairs i<j, flattened, for the U-statistic; passing the mean explicitly changes nothing; a sample and itself give 0 for every average; energy_test_statistic multiplies this by nm/(n+m) whatever the average, and raises TypeError for averages that return Decimals; energy_test sums it over the pairs of samples and compares it with the relabelled samples.", "quantifier": "all averages, samples of any sizes and dimension, exponents, dtypes, both statistics", "why_tests_cant": "Quantifies over all functions passed as average.", "anchors": ["dcor/_energy.py:_energy_distance_from_distance_matrices", "dcor/_energy.py:energy_distance", "dcor/homogeneity.py:energy_test_statistic", "dcor/homogeneity.py:energy_test"]}
{"id": "C83", "title": "The fast methods take O(n log n) time and O(n) memory", "statement": "For one-dimensional samples of n > 3 float64 values, the AVL method (also chosen by AUTO) and the mergesort method compute the squared covariances, correlations and variances with two or three calls of argsort and at most C n ceil(log2 n) further element operations, for an explicit constant C independent of the data; at least 12 n ceil(log2 n) are needed, so the order is exact; the working array of the AVL method has at most 4n elements.", "quantifier": "all sample sizes n > 3, all data (ties included), compiled and uncompiled versions, all times of argsort", "why_tests_cant": "Asymptotic bound over all sizes and data; timings only sample it.", "anchors": ["docs/theory.rst:138-140", "dcor/_dcor.py:DistanceCovarianceMethod", "dcor/_fast_dcov_avl.py:_dyad_update", "dcor/_fast_dcov_avl.py:_dyad_update_compiled_version", "dcor/_fast_dcov_mergesort.py:_compute_weight_sums"]}
{"id": "C84", "title": "Range and accuracy of the distance correlation in float64", "statement": "In float64 the squared distance correlation lies between 0 and 1 (bias-corrected: -1 and 1), and it is close to the exact one if the variances are large compared to their rounding errors.", "quantifier": "all samples of any size and dimension with nonzero variances, exponent 1, naive, AVL and mergesort methods, any order of the sums, no overflow or underflow", "why_tests_cant": "A range and an error bound over all inputs; the values out of range differ from one by a few units in the last place.", "anchors": ["dcor/_dcor.py:distance_correlation_sqr", "dcor/_dcor.py:distance_correlation", "dcor/_dcor.py:_DcovAlgorithmInternals.stats_sqr", "dcor/_dcor.py:u_distance_correlation_sqr"]}
{"id": "C85", "title": "Observations that are NaN or infinite are not ignored", "statement": "If an observation of a sample is NaN or infinite, every squared covariance and correlation with that sample, its variance, their square roots, and the energy distance and its test statistic are NaN: no method drops the observation or returns a number.", "quantifier": "all samples of any size and dimension with NaN and infinities anywhere, exponent 1, naive, AVL (compiled or not, any argsort) and mergesort (any comparison) methods, both estimators, any order of the sums, with or without fused operations", "why_tests_cant": "The number and position of the bad observations, the order in which they are sorted and added, and the way in which infinities meet are unlimited.", "anchors": ["dcor/_dcor.py:distance_stats_sqr", "dcor/_dcor.py:distance_correlation", "dcor/_fast_dcov_avl.py:_distance_covariance_sqr_terms_avl_impl", "dcor/_fast_dcov_mergesort.py:_compute_row_sums", "dcor/_energy.py:energy_distance", "dcor/homogeneity.py:energy_test_statistic"]}
{"id": "C86", "title": "Overflow and underflow do not go unnoticed in the distance correlation", "statement": "If intermediate results overflow or underflow in float64, the distance correlation is not finite, or still close to the exact one.", "quantifier": "all samples of finite float64 numbers, all methods", "why_tests_cant": "The failure needs samples of extreme magnitude, and the returned number looks like a valid correlation.", "anchors": ["dcor/_dcor.py:_DcovAlgorithmInternals.stats_sqr", "dcor/_dcor.py:distance_correlation_sqr", "dcor/_dcor.py:distance_correlation"]}
{"id": "C87", "title": "Samples of moderate magnitude neither overflow nor underflow", "statement": "If the observations are float64 numbers of moderate magnitude (for up to a million observations: zero or between 2**-36 and 2**139 in absolute value), the limits of the float64 exponent do not change any squared covariance, correlation or variance, nor the energy distance and its test statistic: they are exactly what the same operations give with exponents without limits, so the error bounds for those hold.", "quantifier": "all samples of any size up to 2**26 and any dimension, general bounds for magnitude and size, exponent 1, naive, AVL (compiled or not) and mergesort methods, both estimators, any order of the sums, with or without fused operations", "why_tests_cant": "The intermediate results that could overflow or underflow depend on all observations and on the order of the operations.", "anchors": ["dcor/_dcor.py:_DcovAlgorithmInternals.stats_sqr", "dcor/_fast_dcov_avl.py:_distance_covariance_sqr_terms_avl_impl", "dcor/_fast_dcov_mergesort.py:_distance_covariance_sqr_mergesort_generic_impl", "dcor/_energy.py:energy_distance", "dcor/homogeneity.py:energy_test_statistic"]}
{"id": "C88", "title": "Permutation tests of samples with bad observations", "statement": "If an observation is NaN or infinite, or some distance overflows, the statistic of distance_covariance_test, partial_distance_covariance_test and energy_test and the partial distance covariance are NaN: the observation is not dropped. The p-value is then always the smallest possible one, 1/(num_resamples + 1), correctly rounded: an error in the data looks significant.", "quantifier": "all samples of any size and dimension with NaN and infinities anywhere (for energy_test any number of samples), all lists of fewer than 2**53 permutations, exponent 1, any order of the sums", "why_tests_cant": "The number and position of the bad observations, the permutations that are drawn and the order of the sums are unlimited.", "anchors": ["dcor/independence.py:distance_covariance_test", "dcor/independence.py:partial_distance_covariance_test", "dcor/homogeneity.py:energy_test", "dcor/_hypothesis.py:_permutation_test_with_sym_matrix", "dcor/_partial_dcor.py:partial_distance_covariance"]}
{"id": "C89", "title": "The p-value in float64", "statement": "The p-value of a permutation test is the correctly rounded (count + 1)/(num_resamples + 1), where count is the number of permutations whose float64 statistic is above the observed one; it is a number in (0, 1] even if statistics are NaN or infinite. The statistic of energy_test with two samples is energy_test_statistic bit for bit, and with three the sum of those of the pairs.", "quantifier": "all matrices and statistics, all lists of fewer than 2**53 permutations, any order of the sums", "why_tests_cant": "Rounding of the count and of the quotient depends on the number of permutations and on the order of the sum.", "anchors": ["dcor/_hypothesis.py:_permutation_test_with_sym_matrix", "dcor/homogeneity.py:energy_test", "dcor/homogeneity.py:energy_test_statistic"]}
{"id": "C90", "title": "Units, translations and reflections do not change the tests in float64", "statement": "Multiplying the samples by powers of two changes no bit of the p-values of the three permutation tests and of the partial distance correlation, and multiplies the statistics by the corresponding power; translations and reflections of coordinates that are exact in float64 change no bit of any of them.", "quantifier": "all samples of any size and dimension, all lists of permutations, all powers of two, exponent 1, exponents without limits, any order of the sums", "why_tests_cant": "A test compares a few samples; that no comparison of statistics changes through rounding is a statement about all of them.", "anchors": ["dcor/independence.py:distance_covariance_test", "dcor/independence.py:partial_distance_covariance_test", "dcor/homogeneity.py:energy_test", "dcor/_partial_dcor.py:partial_distance_covariance", "dcor/_partial_dcor.py:partial_distance_correlation"]}
{"id": "C91", "title": "Degenerate partial statistics are exact in float64", "statement": "In float64 the partial distance covariance and correlation are symmetric in x and y bit for bit; conditioning on x or on y gives exactly zero; conditioning on a constant sample gives exactly the product of the U-centred matrices; and the partial distance correlation of a sample with itself is zero or within 2**-50 of one.", "quantifier": "all samples of more than three observations of any dimension, exponent 1, exponents without limits, any order of the sums", "why_tests_cant": "That rounding errors cancel exactly in these cases depends on every operation and must hold for all samples.", "anchors": ["dcor/_partial_dcor.py:partial_distance_covariance", "dcor/_partial_dcor.py:partial_distance_correlation", "dcor/_dcor_internals.py:u_product", "dcor/_dcor_internals.py:u_complementary_projection"]}
{"id": "C92", "title": "Range and accuracy of the partial distance correlation in float64", "statement": "The partial distance correlation computed in float64 is between -1 and 1 and close to the exact one. This fails: for samples of float64 numbers which differ by a few multiples of 2**-25 it is -5. If the variances are large compared with the error bounds and the correlations with the third sample are not close to one, the error is bounded by the relative error of the variances divided by 1 - R**2.", "quantifier": "all samples of more than three observations of any dimensions whose variances exceed the stated multiples of the error bound, exponent 1, any order of the sums", "why_tests_cant": "The amplification of rounding errors by the denominator depends on the samples; a test with ordinary data sees neither the range violation nor a bound.", "anchors": ["dcor/_partial_dcor.py:partial_distance_correlation", "dcor/_dcor_internals.py:u_product", "dcor/_dcor_internals.py:_u_distance_matrix"]}
{"id": "C93", "title": "Accuracy of the centred matrices and of the distance covariance test in float64", "statement": "The entries of the double-centred and U-centred distance matrices, the U-product and the statistic of distance_covariance_test are within stated multiples of 2**-53 of the exact ones. The p-value is the correctly rounded exact one if the exact statistic of no permutation is within twice the error bound of the observed one. It fails for ties: if a permutation only exchanges observations of one group, rounding can turn equal statistics into a larger one, and the p-value is 1 instead of 1/(num_resamples + 1).", "quantifier": "all samples of any size up to n**2 + 4*n + max(p, q) + 25 <= 2**53 and any dimension, all lists of fewer than 2**53 permutations, exponent 1, any order of the sums", "why_tests_cant": "A bound for the error holds for all samples and orders of the sums, and the permutations are drawn at random.", "anchors": ["dcor/_dcor_internals.py:double_centered", "dcor/_dcor_internals.py:u_centered", "dcor/_dcor_internals.py:u_product", "dcor/independence.py:distance_covariance_test", "dcor/_hypothesis.py:_permutation_test_with_sym_matrix"]}
{"id": "C94", "title": "Accuracy of the distance covariance and distance correlation (not squared) in float64", "statement": "distance_covariance, distance_correlation and the components of distance_stats computed in float64 are never negative and are within the square root of the error bound of the squared statistics of the exact ones, and within the error bound divided by the statistic if that is not zero. The square root cannot be dropped: for a full factorial design of twelve observations, for which both are exactly zero, distance_covariance and distance_correlation return more than 1e-8, eight orders of magnitude above the rounding error of the squared ones.", "quantifier": "all samples satisfying the magnitude and size conditions of the bounds of the squared statistics, methods naive, AVL and mergesort, any order of the sums", "why_tests_cant": "A test compares a few samples with a tolerance; the bound holds for all samples and explains which tolerance is right near independence.", "anchors": ["dcor/_dcor.py:distance_covariance", "dcor/_dcor.py:distance_correlation", "dcor/_dcor.py:distance_stats", "dcor/_utils.py:_sqrt"]}
{"id": "C95", "title": "Accuracy of the energy test in float64", "statement": "The statistic of energy_test for any number of samples is within a stated multiple of 2**-53 of the exact one, for both estimators. The p-value is the correctly rounded exact one if the exact statistic of no permutation is within twice the error bound of the observed one. It fails for ties: a permutation that only exchanges observations of one sample can give a larger statistic by rounding, and the p-value is 1 instead of 1/(num_resamples + 1).", "quantifier": "all families of two or more samples of any sizes with N**2 + k**2 + p + 15 <= 2**53 (at least two observations each for the U-statistic), any dimension, all lists of fewer than 2**53 permutations, exponent 1, default average, any order of the sums", "why_tests_cant": "A bound for the error holds for all samples and orders of the sums, and the permutations are drawn at random.", "anchors": ["dcor/homogeneity.py:energy_test", "dcor/homogeneity.py:_energy_test_statistic_multivariate_from_distance_matrix", "dcor/_energy.py:_energy_distance_from_distance_matrices", "dcor/_hypothesis.py:_permutation_test_with_sym_matrix"]}
{"id": "C96", "title": "Accuracy of the partial distance covariance and its test in float64", "statement": "partial_distance_covariance and the statistic of partial_distance_covariance_test are within a stated multiple of 2**-53 of the exact values if the bias-corrected distance variance of z is not too small compared with its distances, or if z is constant, and the p-value is the correctly rounded exact one without near ties. It fails for a z that is not constant but has no bias-corrected distance variance, such as 0, 2, 2, 2, 4: the code projects on a matrix of rounding errors, and a partial covariance and correlation that are exactly zero come out as more than 1/40 and 1/60. It fails for ties as well: the p-value is 1 instead of 1/(num_resamples + 1).", "quantifier": "all samples of n > 3 observations of any dimensions with the stated condition number of z, all lists of fewer than 2**53 permutations, exponent 1, any order of the sums", "why_tests_cant": "A bound for the error holds for all samples and orders of the sums; a test with data drawn at random never meets a z without distance variance.", "anchors": ["dcor/_partial_dcor.py:partial_distance_covariance", "dcor/independence.py:partial_distance_covariance_test", "dcor/_dcor_internals.py:u_projection", "dcor/_dcor_internals.py:u_complementary_projection"]}
{"id": "C97", "title": "The t-test in float64: special values, monotonicity and accuracy", "statement": "distance_correlation_t_statistic and distance_correlation_t_test have a NaN statistic exactly for fewer than four observations or a NaN correlation, an infinite one exactly for a correlation of at least 1 in absolute value, the opposite statistic for the opposite correlation, and, in spite of rounding, never a smaller statistic or a larger p-value for a larger correlation. The statistic and the p-value are within a stated distance of the exact ones if the correlation is not too close to 1 in absolute value, and with the naive method a sample against itself has an infinite statistic and p-value 0. With the default method this is false: the times 0, 1, 2, 4 plus 1700000000 against themselves have statistic minus infinity and p-value 1, and against 2, 0, 3, 1 plus 1700000000 the statistic is infinite and the p-value 0 although the correlation is about -1/2.", "quantifier": "all float64 correlations including infinities and NaN, all 3 < n < 2**63 (n <= 2**26 for the error bounds), any monotone t.cdf, any order of the sums; samples of any dimension for the naive and of real numbers for the AVL method", "why_tests_cant": "Monotonicity under rounding and the error bounds concern every pair of float64 numbers; the failing samples are well-formed data whose results look like ordinary test results.", "anchors": ["dcor/independence.py:distance_correlation_t_statistic", "dcor/independence.py:distance_correlation_t_test", "dcor/_dcor.py:u_distance_correlation_sqr"]}
{"id": "C98", "title": "A large statistic gives the smallest p-value: upper bounds for permutation p-values", "statement": "If the statistic T of distance_covariance_test is positive, the average p-value over all sequences of B random permutations is at most (1 + B*D/T)/(B + 1) and the probability that the p-value is not the smallest possible one, 1/(B + 1), is at most B*D/T, where D is n/(n - 1) times the product of the mean distances of the two samples. The same holds for energy_test with V statistics with D = k(k - 1)/2 times the mean distance between two different observations of the pooled sample. So for a statistic that is large compared with the mean distances the test rejects.", "quantifier": "all samples of at least 2 observations of any dimension, all exponents 0 < alpha <= 2, any number of permutations, any number of jobs, all outcomes of the random generator; any number and sizes of samples for the energy test", "why_tests_cant": "The claim is about the average over all n! ** B sequences of permutations and about all samples; a test runs a few seeds on a few samples.", "anchors": ["dcor/independence.py:distance_covariance_test", "dcor/homogeneity.py:energy_test", "dcor/_hypothesis.py:_permutation_test_with_sym_matrix"]}
{"id": "C99", "title": "Estimates of growing samples converge and the permutation tests find the difference", "statement": "With probability one distance_covariance_sqr, u_distance_covariance_sqr and distance_covariance of the first n of independent observations with the same distribution tend to the distance covariance of the distribution, the correlation functions to its distance correlation if its variances are positive, and energy_distance of two samples, whose sizes grow in any way, to the energy distance of the distributions. If the distance covariance of the distribution is positive, distance_covariance_test eventually rejects: the statistic tends to infinity, the probability of the smallest p-value 1/(B + 1) tends to 1 and the average p-value to 1/(B + 1); the same holds for energy_test of k samples if the energy distance of two of the distributions is positive.", "quantifier": "all distributions with finite moments of order alpha (second moments of the distances for correlations) in all dimensions, all probability spaces, almost all outcomes, all sequences of calls with any method and array type, all exponents alpha > 0 (at most 2 for the tests), any number B of permutations", "why_tests_cant": "It is a statement about limits over infinitely many observations of every distribution and about all n! ** B sequences of permutations.", "anchors": ["dcor/_dcor.py:distance_covariance_sqr", "dcor/_dcor.py:u_distance_covariance_sqr", "dcor/_dcor.py:distance_correlation_sqr", "dcor/_energy.py:energy_distance", "dcor/independence.py:distance_covariance_test", "dcor/homogeneity.py:energy_test"]}
{"id": "C100", "title": "Distance covariance characterises independence and energy distance equality of distributions", "statement": "For exponents in (0, 2), which are exactly the ones without a warning, the limit of distance_covariance_sqr, u_distance_covariance_sqr and distance_covariance of growing samples is zero exactly if the variables are independent, the limit of the correlations of non-constant variables lies between 0 and 1 and is zero exactly if they are independent, and the limit of energy_distance is zero exactly if the two distributions are equal. Hence distance_covariance_test eventually rejects for all dependent variables and energy_test for all samples whose distributions are not all equal. With exponent 2, for which a warning is issued, both characterisations fail.", "quantifier": "all distributions with finite moments of order alpha (second moments of the distances for correlations) in all dimensions, all exponents 0 < alpha < 2, all samples of them with probability one, all sequences of calls with any method and array type, any number of permutations and of samples", "why_tests_cant": "Every dependent distribution must be found, however small its correlation; tests see a few samples of a few distributions.", "anchors": ["dcor/_dcor_internals.py:_check_valid_dcov_exponent", "dcor/_energy.py:_check_valid_energy_exponent", "dcor/_dcor.py:distance_covariance_sqr", "dcor/_dcor.py:distance_correlation_sqr", "dcor/_energy.py:energy_distance", "dcor/independence.py:distance_covariance_test", "dcor/homogeneity.py:energy_test"]}
{"id": "C101", "title": "The U-statistics are unbiased, the V-statistics are not", "statement": "The expectation of u_distance_covariance_sqr of more than three independent observations is the distance covariance of their distribution, and the expectation of energy_distance with the U-statistic of two independent samples of at least two observations is the energy distance of their distributions, for every sample size and without any limit. The expectation of distance_covariance_sqr of independent non-constant variables is (n - 1)/n^2 times the product of the mean distances, hence positive although the distance covariance is zero, and the expectation of energy_distance with the V-statistic exceeds the energy distance by the mean distances within the distributions divided by the sample sizes.", "quantifier": "all distributions with finite moments of order alpha in all dimensions, all positive exponents, all sample sizes, all methods and array types", "why_tests_cant": "Expectations are averages over infinitely many samples; tests average a few random samples and can only see large biases.", "anchors": ["dcor/_dcor.py:u_distance_covariance_sqr", "dcor/_dcor.py:distance_covariance_sqr", "dcor/_energy.py:EstimationStatistic", "dcor/_energy.py:energy_distance"]}
{"id": "C102", "title": "Level of the permutation tests for random data", "statement": "For independent observations of independent variables (distance_covariance_test) and for independent samples of one distribution (energy_test, both statistics) with uniformly random permutations, the probability of a p-value of at most k/(B+1) is above k/(B+1) for 1 <= k <= B, because resampled statistics that are equal to the observed one are not counted, and it is above it by at most the probability of such a tie. In the extreme case of two observations (distance_covariance_test) or of samples with one observation each (energy_test with V-statistics) the p-value is always the smallest possible one, 1/(B+1), whatever the data are.", "quantifier": "all distributions in all dimensions, without any moment condition, all exponents, sample sizes, numbers of permutations and levels", "why_tests_cant": "A probability over all data sets and permutations; simulations cannot see an excess of the order of 1/n!.", "anchors": ["dcor/_hypothesis.py:_permutation_test_with_sym_matrix", "dcor/independence.py:distance_covariance_test", "dcor/homogeneity.py:energy_test"]}
{"id": "C103", "title": "Variance of the bias-corrected statistics over relabellings", "statement": "Over all relabellings of one of the samples, u_distance_covariance_sqr has average zero and variance exactly 2/(n(n-3)) times the product of the two bias-corrected distance variances, and u_distance_correlation_sqr has average zero and, unless a variance is zero, variance exactly 2/(n(n-3)), whatever the data are; at most the part 1/(1+n(n-3)t^2/2) of the relabellings gives a correlation of t > 0 or more. For partial_distance_covariance_test with a positive partial_distance_correlation rho, the p-value is the smallest possible one, 1/(B+1), with probability at least 1 - B/(1+n(n-3)rho^2/2); with a negative rho it is 1 with at least this probability.", "quantifier": "all samples of more than three observations in all dimensions, all exponents, methods and compilation modes, all numbers of permutations", "why_tests_cant": "Averages over all n! relabellings of all data sets.", "anchors": ["dcor/_dcor.py:u_distance_covariance_sqr", "dcor/_dcor.py:u_distance_correlation_sqr", "dcor/independence.py:partial_distance_covariance_test", "dcor/_partial_dcor.py:partial_distance_correlation"]}
{"id": "C104", "title": "Consistency of the partial distance covariance, correlation and test", "statement": "For independent observations of a distribution with square-integrable distances, with probability one partial_distance_covariance and partial_distance_correlation tend to the partial distance covariance and correlation of the distribution. If the former is positive, the p-value of partial_distance_covariance_test is 1/(B+1) with a probability that tends to one; if it is negative, the statistic tends to minus infinity and the p-value is 1 with a probability that tends to one.", "quantifier": "all distributions, all dimensions, almost all infinite samples, all arrays holding the samples, all exponents less than two (the others if the third vector has positive distance variance), all numbers of permutations", "why_tests_cant": "A limit over all sample sizes for almost all infinite samples of every distribution; a test can only show some sizes of some samples.", "anchors": ["dcor/_partial_dcor.py:1-174", "dcor/independence.py:138-238"]}
{"id": "C105", "title": "The partial test is not a test of conditional independence", "statement": "The docstring of partial_distance_covariance_test says that its null hypothesis is that the first two random vectors are independent given the third one. The test would have to have its nominal level for conditionally independent vectors and to find conditional dependence in large samples. Neither holds: for some conditionally independent vectors the p-value tends to 1/(B+1), and for some conditionally dependent ones it tends to 1. Both hold (the level up to ties, as in C102) if the third vector is constant.", "quantifier": "all positive exponents and numbers of permutations, almost all infinite samples of the two distributions; for the positive part all distributions with a constant third vector", "why_tests_cant": "The claim is about limits of p-values for almost all infinite samples; no test of the suite checks the level of the partial test.", "anchors": ["dcor/independence.py:138-238"]}
{"id": "C106", "title": "The t-test with Student's distribution", "statement": "With Student's t-distribution as the distribution function, the p-value of distance_correlation_t_test is less than 1/2 exactly for positive bias-corrected correlations and 1/2 exactly for the correlation zero; opposite correlations have p-values that add to one. For dependent variables with square-integrable distances, with probability one the statistic tends to infinity and the p-value to zero. For independent variables of any dimension the p-value is at most the tail of the t-distribution at tau with a probability of at most 1/(1+v tau^2/(v-1+tau^2)), v=n(n-3)/2.", "quantifier": "all samples of more than three observations, all distributions, all dimensions, almost all infinite samples, all tau > 0", "why_tests_cant": "Limits over infinite samples, probabilities over all data and all degrees of freedom.", "anchors": ["dcor/independence.py:241-349"]}
{"id": "C107", "title": "The level of the t-test in low dimension", "statement": "distance_correlation_t_test accepts samples of any dimension. For independent observations of two independent fair coins the probability that the p-value is at most the tail of the t-distribution at tau tends to the probability that z^2 >= 1 + sqrt(2) tau for a standard normal z, not to the tail of the normal distribution. For all large numbers of observations the p-value is at most 1/100000 with a probability of at least 1/1000; for four observations it is zero with a probability of at least 3/64.", "quantifier": "all tau > 0, all sequences of independent observations of two independent coins, all arrays holding them", "why_tests_cant": "A limit in distribution over all sample sizes; small p-values of independent samples in a test suite would be taken for chance.", "anchors": ["dcor/independence.py:241-349"]}
{"id": "C108", "title": "The level of the t-test in high dimension", "statement": "Let the n > 3 observations passed to distance_correlation_t_test have independent coordinates with the same distribution with a fourth moment and non-zero variance, and let the other argument hold any data independent of them (any dimension, possibly growing; its observations may be dependent on each other). As the number of coordinates grows, the probability that the p-value is at most alpha approaches alpha times the probability that u_distance_covariance_sqr(y, y) is not zero; so it is eventually at most alpha + eps, and tends to alpha if that statistic almost surely does not vanish. The same holds with the arguments exchanged.", "quantifier": "all n > 3, all distributions of the coordinates with a fourth moment, all independent second samples, all alpha in (0, 1/2), all arrays holding the data", "why_tests_cant": "A limit of probabilities over all distributions and dimensions; a simulation fixes a distribution and has sampling error, and a wrong number of degrees of freedom changes the level only slightly.", "anchors": ["dcor/independence.py:241-349"]}
{"id": "C109", "title": "Row-wise functions in float64", "statement": "dcor.rowwise(f, x, y) with the optimised implementation agrees with f(x[i], y[i]) in float64: the covariances are bit for bit those of the compiled AVL method; the squared correlations agree within 6 r + 14 * 2**-53 and are within 3 r + 8 * 2**-53 of the exact ones if the rounding errors of the variances are at most a fraction r <= 1/4 of them, and they do not change if the rows are multiplied by powers of two. Without that condition the correlations do not agree: a row with NaN or an infinity has correlation 0 with every row where f gives NaN, a constant row can have correlation inf, and [0, 1, 2, 4] with itself gives 1 + 2**-52 where distance_correlation_sqr gives 1.", "quantifier": "all numbers and lengths of rows, all float64 data, all square roots and orders of summation allowed by IEEE 754, all sorting functions", "why_tests_cant": "The row-wise code computes variances and quotients in a different way; tests compare them with allclose for a few well-scaled rows and cannot bound the difference over all data and orders of summation.", "anchors": ["dcor/_rowwise.py:17-102", "dcor/_fast_dcov_avl.py:563-640", "dcor/_dcor_internals_numba.py:43-91"]}
{"id": "C110", "title": "Consistency of the affinely invariant distance correlation", "statement": "For observations of square integrable random vectors x and y, neither of which has only one value, distance_correlation_af_inv_sqr of the first n observations converges with probability one, to a limit between 0 and 1 that is zero exactly if x and y are independent; distance_correlation_af_inv converges to its square root. The covariance matrices may be singular, as for a measurement that is recorded twice in different units. If the data are affine images of random vectors with uncorrelated components of unit variance, the limit is the distance correlation of those vectors, whatever the affine maps are.", "quantifier": "all distributions with square integrable parts, all dimensions, all injective affine maps, almost all samples, all methods, arrays and eigendecompositions", "why_tests_cant": "A limit over all sample sizes and distributions: every finite sample is whitened with its own covariance matrix, which differs from the one of the distribution, and no test fixes what the values estimate.", "anchors": ["dcor/_dcor_internals.py:703-735", "dcor/_dcor.py:1042-1171"]}
{"id": "C111", "title": "Accuracy for a given number of observations", "statement": "Let the distances between values of x be at most A and between values of y at most B. For n independent observations, u_distance_covariance_sqr differs from the distance covariance of the distribution by t or more with a probability of at most 2 exp(-(n-4)^2 t^2 / (72 n A^2 B^2)), and distance_covariance_sqr by t + 10 A B / n or more with a probability of at most 2 exp(-n t^2 / (72 A^2 B^2)). In particular n >= 20 A B / e and n >= 288 A^2 B^2 log(2/d) / e^2 observations give an error below e with probability 1 - d, whatever the distribution. For independent samples of n and m observations with distances of at most D, energy_distance with U-statistics differs from the energy distance of the distributions by t or more with a probability of at most 2 exp(-n m t^2 / (8 (n + m) D^2)), with V-statistics by t + D/n + D/m or more.", "quantifier": "all distributions with bounded values, all dimensions, all exponents, all sample sizes, all methods and arrays", "why_tests_cant": "A bound for every distribution and sample size; a simulation estimates the probability for one distribution with limited precision.", "anchors": ["dcor/_dcor.py:440-558", "dcor/_energy.py:88-128", "dcor/_energy.py:131-209"]}
{"id": "C112", "title": "Samples of short integers and booleans", "statement": "For two NumPy vectors of dtype int8, int16, int32 or bool with at least four observations, the fast methods (AVL, which is what AUTO selects, and mergesort) return the distance covariance and the distance correlation of the numbers that the vectors contain. The code falsifies this: the arrays with the partial sums have the dtype of the samples, and the sums that are stored in them wrap around (or become True); the only warning is the one that says that the uncompiled version is used.", "quantifier": "all vectors of short integers of any length, both fast methods, biased and unbiased statistics, every way of sorting ties", "why_tests_cant": "Small samples of small numbers are right; whether some intermediate result leaves the range of the dtype depends on the number of observations and their size together, and the exact limit is a statement about all samples.", "anchors": ["dcor/_fast_dcov_avl.py:43-87", "dcor/_fast_dcov_avl.py:154-175", "dcor/_fast_dcov_avl.py:202-285", "dcor/_fast_dcov_avl.py:314-414", "dcor/_fast_dcov_mergesort.py:142-174", "dcor/_fast_dcov_mergesort.py:215-264"]}
{"id": "C113", "title": "Samples of dtype float32", "statement": "For two NumPy vectors of dtype float32 with at least four observations, the default method returns squared distance covariances and variances whose error is a small multiple of the float32 precision times the product of the distances between the observations, wherever the observations lie. The code falsifies this: the partial sums are float32 numbers as large as the squares of the observations, and the differences between them lose all digits when the observations are far from zero, even though the naive method, which converts to float64, is exact on the same samples. The error is bounded relative to the squares of the observations. It is bounded by the distances for whole numbers of absolute value at most X and Y if 4 n^2 X Y <= 2^24, since no sum is rounded then. The row-wise functions convert the rows to float64 and only round the result to float32, so they give other numbers than the functions themselves.", "quantifier": "all float32 vectors of any length, every order of summation, biased and unbiased statistics, every way of sorting ties", "why_tests_cant": "The error depends on the order of summation, which NumPy does not specify, and on all digits of all observations; a test that passes on numbers near zero says nothing about the same numbers plus a constant.", "anchors": ["dcor/_fast_dcov_avl.py:154-175", "dcor/_fast_dcov_avl.py:202-414", "dcor/_fast_dcov_avl.py:543-560", "dcor/_dcor_internals.py:176-199", "dcor/_dcor.py:241-313", "dcor/_fast_dcov_avl.py:563-641"]}
{"id": "C114", "title": "Samples of unsigned integers", "statement": "For two NumPy vectors of dtype uint8, uint16 or uint32 with at least four observations, such as grey levels or counts, the default method returns the defined squared distance covariances and correlations. The code falsifies this: the weights and partial sums have the dtype of the samples and wrap around, and the sum of products, which should be a small nonnegative number, is a uint64 number near 2 ** 64, so that the squared distance correlation of a column with itself can exceed 10 ** 15. It holds if 4 (n - 1) M N < 2 ** w for observations up to M and N and w bits.", "quantifier": "all vectors of unsigned integers of 8, 16 or 32 bits of any length, biased and unbiased, every way of sorting ties", "why_tests_cant": "Whether a partial sum wraps around depends on the number of observations and on all of their values; samples that pass say nothing about larger ones, and 64 labels are right while 65 are not.", "anchors": ["dcor/_fast_dcov_avl.py:154-175", "dcor/_fast_dcov_avl.py:202-414", "dcor/_fast_dcov_avl.py:543-560", "dcor/_dcor.py:217-313"]}
{"id": "C115", "title": "Distance variance and covariance are bounded by classical dispersion", "statement": "The distance variance of a sample (distance_covariance of it with itself) is at most Gini's mean difference, for every exponent in (0, 2], and with the default exponent at most the standard deviation. It equals the mean difference exactly if the sample has at most two different observations (exponent at most one), and the standard deviation exactly if moreover they occur equally often. The squared distance covariance of two samples is at most the product of the mean differences and of the standard deviations.", "quantifier": "all samples of any size and dimension, every method and compile mode, exponents in (0, 2] (bounds) or (0, 1] (equality)", "why_tests_cant": "An inequality between statistics of different kinds for all samples, with its cases of equality; random samples stay far away from equality.", "anchors": ["dcor/_dcor.py:440-497", "dcor/_dcor.py:561-618", "dcor/_dcor_internals.py:176-199"]}
{"id": "C116", "title": "For numbers the statistics compare distribution functions", "statement": "With the default exponent, the squared distance covariance of two samples of numbers is four times the integral of (H(s,t) - F(s)G(t))^2 over the plane, where H is their joint empirical distribution function and F, G are their own; the energy distance of two samples of numbers is twice the integral of (F - G)^2. So the energy distance is at most 2 D^2 times the range, D being the Kolmogorov-Smirnov statistic, and the squared distance covariance at most a quarter of the product of the ranges.", "quantifier": "all samples of numbers of any size, ties included, every method and compile mode", "why_tests_cant": "An identity between a sum over pairs and an integral for all samples; tests compare with stored values.", "anchors": ["dcor/_dcor.py:440-497", "dcor/_energy.py:88-128", "dcor/_energy.py:131-209"]}
{"id": "C117", "title": "A number of observations that is enough for the permutation tests", "statement": "For distributions whose values have distances of at most A and B and whose distance covariance is V > 0, if n V >= 40 A B and n V^2 >= 1152 (A B)^2 log(2/delta), then with a probability of at least 1 - delta the data are such that distance_covariance_test with N resamples returns the smallest p-value 1/(N+1), except for a fraction of at most 2 N A B/(n V) of the permutations. Likewise energy_test of two samples with distances of at most D, energy distance E and h = n m/(n+m), if h E >= 4 D and h E^2 >= 128 D^2 log(2/delta), except for a fraction of at most 2 N D/(h E).", "quantifier": "all distributions with bounded values, all sizes of the samples, numbers of resamples, exponents in (0, 2] and delta", "why_tests_cant": "A statement on probabilities for all distributions; a test can only simulate one distribution.", "anchors": ["dcor/independence.py:distance_covariance_test", "dcor/homogeneity.py:energy_test", "dcor/_hypothesis.py:_permutation_test_with_sym_matrix"]}
{"id": "C118", "title": "The bias-corrected functions do not see how far away extreme observations are", "statement": "For samples of numbers (exponent 1, more than three observations) replacing a largest observation by another number that is still a largest one, or a smallest one by another smallest one, does not change u_distance_covariance_sqr, u_distance_correlation_sqr, u_distance_stats_sqr or distance_correlation_t_test. The bias-corrected variance is 0 exactly if all distances are sums of two radii; for numbers exactly if all observations but perhaps a smallest and a largest one are equal. For such samples, for example those of a rare event that happened once, the bias-corrected covariance and correlation with every sample are 0, the bias-corrected correlation with itself is 0 and not 1, and the t statistic is 0, although the distance correlation with itself is 1.", "quantifier": "all samples with more than three observations; all exponents for the criterion with radii and the rare event", "why_tests_cant": "An exact invariance for all samples and a characterisation of all samples with a vanishing variance.", "anchors": ["dcor/_dcor.py:u_distance_covariance_sqr", "dcor/_dcor.py:u_distance_correlation_sqr", "dcor/_dcor.py:u_distance_stats_sqr", "dcor/independence.py:distance_correlation_t_test"]}
{"id": "C119", "title": "Observations that are far away decide distance_correlation and distance_covariance_test", "statement": "If the same observation moves to infinity in both samples, in any directions and at any speeds, distance_correlation tends to 1 whatever the samples are, and from some distance on the p-value of distance_covariance_test (three or more observations) is at most (1 + f)/(N + 1), with f the number of drawn permutations that leave the outlier in its place. If one observation of the first sample only moves to infinity, distance_correlation tends to a number that does not depend on the other observations of the first sample; if the observation of the second sample that belongs to it has the smallest sum of distances to the others, the p-value is at least (1 + m)/(N + 1), with m the number of drawn permutations that move the outlier, and if it has the largest sum the p-value is at most (1 + N - m)/(N + 1), for any dependence of the other observations.", "quantifier": "all samples, directions of the outliers, positive exponents, numbers of resamples and sequences of permutations", "why_tests_cant": "A limit for all samples; a test can only try some samples and distances.", "anchors": ["dcor/_dcor.py:distance_correlation", "dcor/independence.py:distance_covariance_test", "dcor/_hypothesis.py:_permutation_test_with_sym_matrix"]}
{"id": "C120", "title": "The mergesort method on unsigned integers", "statement": "With method mergesort, distance_covariance_sqr, distance_stats_sqr, distance_covariance and distance_correlation of uint8, uint16 and uint32 columns return the defined values.", "quantifier": "all columns of unsigned integers of 8, 16 or 32 bits, all functions that sort", "why_tests_cant": "The claim is about every column and length; the wrap-around of uint64 subtractions inside the method is not visible in any test of float or int64 data.", "anchors": ["dcor/_fast_dcov_mergesort.py:_compute_aijbij_term", "dcor/_fast_dcov_mergesort.py:_compute_row_sums", "dcor/_dcor.py:distance_correlation"]}
{"id": "C121", "title": "The mergesort method on float32 samples", "statement": "With method mergesort and float32 samples, the squared distance covariance is as accurate as the distances allow: its error is bounded by the largest distances of both samples times the precision of float32 (or better), whatever the size of the observations themselves.", "quantifier": "all float32 samples, all orders of summation and sorting functions", "why_tests_cant": "Rounding depends on the magnitudes, the number of observations and the order of summation; tests use few small numbers, mostly in float64.", "anchors": ["dcor/_fast_dcov_mergesort.py:_compute_aijbij_term", "dcor/_fast_dcov_mergesort.py:_compute_row_sums", "dcor/_dcor_internals.py:_dcov_from_terms"]}
{"id": "C122", "title": "An outlier in the energy distance and the energy test", "statement": "If one observation moves far away, then energy_distance with V-statistics divided by the power of the distance moved tends to 2 |u|^alpha / n^2 and so exceeds every bound; with U-statistics and an exponent of at most 1 replacing an observation by any value changes the energy distance by at most 4/n times the largest distance between the other observations of that sample and the second sample. energy_test with V-statistics then only compares the sizes of the samples that contain the outlier: from some distance on the p-value is at most (1+f)/(N+1), f the number of drawn permutations that leave the outlier in its sample, if this is the smallest sample, and at least (1+N-f)/(N+1) if it is the largest, whatever the other observations are.", "quantifier": "all samples, numbers and sizes of samples, exponents, directions of the outlier, drawn permutations", "why_tests_cant": "The claims are about limits and about all samples and all permutations.", "anchors": ["dcor/_energy.py:energy_distance", "dcor/homogeneity.py:energy_test"]}
{"id": "C123", "title": "Partial statistics of fewer than four observations", "statement": "With fewer than four observations, for which the inner product of U-centred matrices is not defined, partial_distance_covariance and partial_distance_correlation return NaN, for every number of columns and every dtype.", "quantifier": "all samples of at most three observations, all dtypes and combinations of them", "why_tests_cant": "The behaviour depends on divisions by zero, which NumPy numbers, Python numbers and mixtures of both treat differently; tests show the behaviour of single arrays.", "anchors": ["dcor/_partial_dcor.py:partial_distance_covariance", "dcor/_partial_dcor.py:partial_distance_correlation", "dcor/_dcor_internals.py:u_product", "dcor/_dcor_internals.py:u_centered"]}
{"id": "C124", "title": "Adding independent noise", "statement": "For 0 < exponent < 2: the distance covariance of the sums of two independent samples of pairs is, in the limit of growing samples, at most the sum of the distance covariances of the two; in particular errors of measurement that are independent of the data and of each other never make distance_covariance larger in the limit, and the distance standard deviation is subadditive. The square root of energy_distance is subadditive in the same way, and noise of the same distribution in both samples never makes energy_distance larger in the limit. If every observation occurs with every error, the inequalities hold for the returned values themselves; for observations and errors added one by one they do not.", "quantifier": "all distributions with finite moments, all pairs of dimensions, all exponents between 0 and 2, all methods, almost all sequences of observations; all finite samples for the complete designs", "why_tests_cant": "The claim is an inequality between limits over all distributions; random samples violate it by chance, so that a test can neither confirm nor refute it.", "anchors": ["dcor/_dcor.py:distance_covariance", "dcor/_energy.py:energy_distance"]}
{"id": "C125", "title": "The partial test compares with the statistics of permuted samples", "statement": "The p-value of partial_distance_covariance_test is (1 + number of drawn permutations for which the test statistic of the permuted x, with y and z unchanged, exceeds the observed one) / (num_resamples + 1), as for distance_covariance_test. (The code violates this: it permutes the matrix of residuals, which is x together with z, and compares with residuals of y given z in the original order; the two agree if the permutations preserve the distances within z.)", "quantifier": "all samples of more than three observations, all drawn permutations, all exponents", "why_tests_cant": "The p-values of the two procedures agree for most samples and for all small numbers of permutations with luck; which of them is computed follows only from the algebra of the permuted residuals.", "anchors": ["dcor/independence.py:partial_distance_covariance_test", "dcor/_hypothesis.py:_permuted_statistic", "dcor/_dcor_internals.py:u_complementary_projection"]}
{"id": "C126", "title": "Partial statistics of four observations", "statement": "With four observations, unless the bias-corrected distance variance of z vanishes, partial_distance_correlation is -1, 0 or 1 whatever x and y are, and partial_distance_covariance_test returns the smallest possible p-value 1/(num_resamples+1) whenever its statistic is positive, for all permutations.", "quantifier": "all samples of four observations in any dimensions, all exponents but 0 (test), all generators and numbers of permutations", "why_tests_cant": "Holds for a continuum of samples and for all generators; single calls only show single values.", "anchors": ["dcor/_partial_dcor.py:partial_distance_correlation", "dcor/independence.py:partial_distance_covariance_test", "dcor/_dcor_internals.py:u_product"]}
{"id": "C127", "title": "Dependence on the exponent", "statement": "distance_covariance_sqr, distance_correlation (of samples that are not constant) and energy_distance are continuous in the exponent. For exponents that tend to zero they only see which observations are equal: distance_covariance_sqr tends to the sum of the squared differences between the frequencies of pairs of values and the products of the frequencies of the values, energy_distance to the sum of the squared differences of the frequencies, distance_correlation of samples without repeated observations to 1, and u_distance_covariance_sqr to 0 if one sample has no repeated observations. With the exponent 0 itself distance_covariance_sqr is 0.", "quantifier": "all samples in any dimensions, all families of exponents that converge", "why_tests_cant": "Limits over a continuum of exponents; a test evaluates finitely many exponents and cannot see where they lead.", "anchors": ["dcor/distances.py:pairwise_distances", "dcor/_dcor.py:distance_covariance_sqr", "dcor/_dcor.py:distance_correlation", "dcor/_energy.py:energy_distance"]}
{"id": "C128", "title": "The energy test compares the dispersion within the samples", "statement": "For two samples, and for any number of samples of the same size, the V-statistic of energy_test is half the number of samples times the difference between the dispersion of all observations (their number times the mean of all their distances) and the dispersion within the samples (the sum of the same quantities of the samples). Therefore the p-value is one plus the number of drawn relabellings with a strictly smaller dispersion within the samples, over one plus the number of resamples; and the statistic is at most half the number of samples times the dispersion of all observations, with equality exactly if every sample is constant. For three samples of different sizes this fails: relabellings with the same dispersion within the samples can have different statistics.", "quantifier": "all samples in any dimension, all exponents, all numbers of resamples and drawn permutations", "why_tests_cant": "An identity over all samples and all permutations; a test compares finitely many of them, and the case of different sizes is not visible in tests with equal sizes.", "anchors": ["dcor/homogeneity.py:energy_test", "dcor/homogeneity.py:_energy_test_statistic_multivariate_from_distance_matrix", "dcor/_hypothesis.py:_permutation_test_with_sym_matrix"]}
{"id": "C129", "title": "Random subsamples", "statement": "Statistics of random subsamples (drawn without replacement, like x[rng.permutation(N)[:m]]) estimate the statistics of the whole samples: the average over all subsamples of u_distance_covariance_sqr (at least four observations) and of energy_distance with U-statistics (at least two observations of each sample, drawn independently) is exactly the value for the whole samples. The average of energy_distance with V-statistics is larger, by 1/n - 1/N times the mean distance of two different observations of the first sample plus the same quantity of the second.", "quantifier": "all samples in any dimensions, all sizes of the subsamples, all positive exponents, all methods", "why_tests_cant": "Averages over N! orders for all samples; a test draws some subsamples and can only see that the averages are close.", "anchors": ["dcor/_dcor.py:u_distance_covariance_sqr", "dcor/_energy.py:energy_distance"]}
{"id": "C130", "title": "Invariance of the partial functions", "statement": "partial_distance_correlation does not change, and partial_distance_covariance is multiplied by c d, if all distances within x, y and z are multiplied by positive numbers c, d and e (changes of units, translations, rotations, embeddings in another dimension); both do not change if the observations of the three samples are reordered in the same way. partial_distance_correlation follows from the results of u_distance_correlation_sqr for the three pairs of samples like a classical partial correlation, and is zero if x or y has bias-corrected correlation one or minus one with z. partial_distance_covariance(x, x, z) lies between zero and u_distance_covariance_sqr(x, x).", "quantifier": "all samples of more than three observations in any dimensions, all similarities, all permutations, all supported methods", "why_tests_cant": "Identities and inequalities over all samples and all transformations; tests compare single values.", "anchors": ["dcor/_partial_dcor.py:partial_distance_covariance", "dcor/_partial_dcor.py:partial_distance_correlation", "dcor/_dcor.py:u_distance_correlation_sqr"]}
{"id": "C131", "title": "The energy test is a distance covariance test", "statement": "energy_test of two samples, with V-statistics and an exponent greater than zero, returns the same p-value as distance_covariance_test of the pooled sample and a second sample of labels (zero for the observations of the first sample and one for those of the second, or any two other points), with the same random state, exponent and number of resamples; both functions leave the generator in the same state, and the statistic of the second is 2 l^a n m / (n + m)^2 times that of the first, where l is the distance of the labels. The same holds for any number of samples of the same size with labels of equal distance from each other, as indicator vectors, with the factor 2 l^a / k^2. It does not hold for three samples of different sizes: for [2], [10] and [0, 1] and one resample, one test returns the p-value 1 and the other 1/2.", "quantifier": "all samples in any dimension, all labels, all generators and random states, all numbers of resamples and of jobs", "why_tests_cant": "An equality of the results of two functions implemented separately, over all samples, labels and generators; tests compare each function with stored values.", "anchors": ["dcor/homogeneity.py:energy_test", "dcor/independence.py:distance_covariance_test", "dcor/_hypothesis.py:_permutation_test_with_sym_matrix"]}
{"id": "C132", "title": "Matrices of squared distance correlations are correlation matrices", "statement": "For any number of samples with the same number of observations, of any dimensions, the matrix of the results of distance_covariance_sqr (or u_distance_covariance_sqr) for all pairs is symmetric and positive semidefinite, so it can be used as a covariance or kernel matrix, and so is the matrix of the results of distance_correlation_sqr (or u_distance_correlation_sqr). The correlation t of x and z is confined by the correlations r of x and y and s of y and z: (t - r s)^2 <= (1 - r^2)(1 - s^2); in particular t > 0 if r^2 + s^2 > 1 and t = s if r = 1. The matrix of the results of distance_correlation, without the square, need not be positive semidefinite: it has a negative eigenvalue for [0, 0, 1, 1], [0, 1, 2, 3] and [0, 1, 0, 1].", "quantifier": "all families of samples, all exponents, all methods, which may differ between the pairs; n > 3 and exponents other than zero for the bias-corrected functions", "why_tests_cant": "A property of the results of many calls together, over all families of samples.", "anchors": ["dcor/_dcor.py:distance_covariance_sqr", "dcor/_dcor.py:u_distance_covariance_sqr", "dcor/_dcor.py:distance_correlation_sqr", "dcor/_dcor.py:u_distance_correlation_sqr", "dcor/_dcor.py:distance_correlation"]}
{"id": "C133", "title": "Matrices of unsigned integers", "statement": "energy_distance and, for samples of several columns, the distance covariance and correlation return for arrays of unsigned integers (images, counts) what they return for the same numbers in a float64 array. (The code violates this: differences and squares are computed in the dtype of the sample. If all values are multiples of 16 in uint8, or of 256 in uint16, all distances are zero, so that the energy distance of any two such samples is zero and the correlation of a sample with itself is zero; the energy distance of [0, 15] and [16] in uint8 is -6.5. The claim holds if the squares of the differences fit in the dtype.)", "quantifier": "all sizes and dimensions, all widths of unsigned integers, all exponents, both estimators", "why_tests_cant": "Whether the results are right depends on the differences between all pairs of observations; small test samples with small values pass.", "anchors": ["dcor/distances.py:_cdist_naive", "dcor/_energy.py:energy_distance", "dcor/_dcor_internals.py:_dcov_terms_naive", "dcor/_dcor.py:distance_stats_sqr"]}
{"id": "C134", "title": "Samples of dtype float16", "statement": "For one-dimensional arrays of dtype float16 the default method returns the distance covariance, correlation and variances of the observations, up to rounding. (The code violates this: it computes in float16. For more than 180 observations distance_correlation of any two such samples is 0 or NaN, since the factor 2 n^2 of the variances is infinite; if the product of two observations that belong together is at least 65520, distance_covariance is NaN, infinite or 0. For small integers the sums are exact.)", "quantifier": "all samples, all orders of summation, both estimators; any permutation returned by argsort for the failures", "why_tests_cant": "float16 samples of tests are small; the failures are for all larger samples.", "anchors": ["dcor/_fast_dcov_avl.py:_distance_covariance_sqr_terms_avl", "dcor/_dcor_internals.py:_dcov_from_terms", "dcor/_dcor.py:distance_correlation", "dcor/_dcor.py:distance_covariance"]}
{"id": "C135", "title": "The mergesort method on samples of dtype float16", "statement": "For one-dimensional arrays of dtype float16 method='mergesort' returns the distance covariance, correlation and variances of the observations, up to rounding. (The code violates this: for more than 180 observations the distance correlation of any two samples is 0 or NaN; the squared distance covariance is infinite or NaN if an observation of the first sample times the number of observations is at least 65520 (at most 2048 observations), if the product of two observations that belong together is at least 65520, or if there are at least 65520 observations. For small integers the sums are exact.)", "quantifier": "all samples, all orders of summation, both estimators; any comparison of the merge and any permutation returned by argsort for the failures", "why_tests_cant": "float16 samples of tests are small; the failures are for all larger samples.", "anchors": ["dcor/_fast_dcov_mergesort.py:_generate_compute_aijbij_term", "dcor/_fast_dcov_mergesort.py:_compute_row_sums", "dcor/_fast_dcov_mergesort.py:_generate_distance_covariance_sqr_terms_mergesort_impl", "dcor/_dcor_internals.py:_dcov_from_terms"]}
{"id": "C136", "title": "The row-wise covariance of samples of dtype float16", "statement": "rowwise of distance_covariance_sqr or u_distance_covariance_sqr for arrays of dtype float16 returns, for every pair of rows, the squared distance covariance up to a rounding to float16. (The code violates this if the squared distance covariance is 65520 or more, that is, a distance covariance of 256: the entry is then infinite. Below, the entry is as accurate as float16 numbers can be, even where distance_covariance_sqr itself returns infinity or NaN for the same rows.)", "quantifier": "all rows of numbers of float16 with at least four observations, both estimators, all orders of summation", "why_tests_cant": "Tests compare the row-wise functions and the functions themselves on float64 samples.", "anchors": ["dcor/_fast_dcov_avl.py:_rowwise_distance_covariance_sqr_avl_generic", "dcor/_fast_dcov_avl.py:_generate_rowwise_internal", "dcor/_rowwise.py:_generate_rowwise_distance_covariance_sqr"]}
{"id": "C137", "title": "The row-wise correlation of samples of dtype float16", "statement": "rowwise(distance_correlation_sqr, x, y) for arrays of dtype float16 returns, for every pair of rows, a number close to the squared distance correlation, which does not depend on the scale of the samples. (The code violates this: as soon as the squared distance variance of one of the two rows is 65520 or more, its float16 value is infinite and the entry is exactly zero, without a warning; for two equal rows the correlation is one. If the variance of the first row is rounded to zero and the covariance is not, the entry is infinite. In between, the entry is within 13/1024 of the correlation. It is never NaN.)", "quantifier": "all rows of numbers of float16 with at least four observations, all orders of summation", "why_tests_cant": "Tests compare the row-wise correlation with the function itself on a few float64 samples of small numbers.", "anchors": ["dcor/_rowwise.py:_generate_rowwise_distance_correlation_sqr", "dcor/_utils.py:_sqrt", "dcor/_fast_dcov_avl.py:_rowwise_distance_covariance_sqr_avl_generic"]}
{"id": "C138", "title": "The row-wise correlation of samples of dtype float32", "statement": "rowwise(distance_correlation_sqr, x, y) and rowwise(u_distance_correlation_sqr, x, y) for arrays of dtype float32 return, for every pair of rows, a number close to the squared distance correlation: within 26 r if the error bound of float64 is at most a fraction r of both squared distance variances, where r is at least 2^-24. This holds also where distance_correlation_sqr itself is wrong by 0.08 for the same rows.", "quantifier": "all rows of float32 numbers with at least four observations, all orders of summation in float64, all square root functions with a relative error of at most 2^-23", "why_tests_cant": "Tests compare the row-wise functions and the functions themselves on a few float64 samples; they cannot bound the error for all float32 rows.", "anchors": ["dcor/_rowwise.py:_generate_rowwise_distance_correlation_sqr", "dcor/_utils.py:_sqrt", "dcor/_fast_dcov_avl.py:_rowwise_distance_covariance_sqr_avl_generic"]}

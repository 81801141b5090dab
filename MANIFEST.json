{
 "claims": [
  {
   "property": "C01",
   "status": "proved",
   "theorems": [
    "Efax.C01_flatten_unflatten_mapped"
   ],
   "note": "Every class of the table, every nesting, dimension and batch shape."
  },
  {
   "property": "C02",
   "status": "proved",
   "theorems": [
    "Efax.C02_flatten_unflatten_raw"
   ],
   "note": "Declared supports only; no condition on values except symmetry of matrices."
  },
  {
   "property": "C03",
   "status": "proved",
   "theorems": [
    "Efax.C03_unflatten_flatten",
    "Efax.C03_unflatten_injective",
    "Efax.C03_unflatten_accepts"
   ],
   "note": "Also injectivity, and acceptance of every array of the right length for real-valued families."
  },
  {
   "property": "C04",
   "status": "proved",
   "theorems": [
    "Efax.C04_flattened_shape",
    "Efax.C04_support_shape",
    "Efax.C04_simplex_shape"
   ],
   "note": ""
  },
  {
   "property": "C05",
   "status": "proved",
   "theorems": [
    "Efax.C05_wrong_length_rejected",
    "Efax.C05_right_length_accepted"
   ],
   "note": "NaN (complex or disk parameter decoded from the origin) is reported by the model as soon as it arises instead of at the end."
  },
  {
   "property": "C06",
   "status": "proved",
   "theorems": [
    "Efax.C06_unflatten_in_support",
    "Efax.C06_real_field"
   ],
   "note": "Tree level: every decoded parameter lies strictly inside its declared support (plane-mapped mode), with the finite result as hypothesis only where complex or disk values occur. Ring level: RealField with min_open/max_open, including the epsilon margin. Floats are modelled by reals."
  },
  {
   "property": "C07",
   "status": "proved",
   "theorems": [
    "Efax.C07_complex_exact",
    "Efax.C07_circular_exact",
    "Efax.C07_complex_partial",
    "Efax.C07_circular_partial",
    "Efax.C07_complex_counterexample",
    "Efax.C07_circular_counterexample",
    "Efax.C07_max_modulus_counterexample"
   ],
   "note": "The code violates the claim: at the origin of the plane the decoded value is 0/0, for every complex ring and every disk (counterexample theorems); with a positive minimum_modulus the decoded modulus may exceed maximum_modulus. The exact theorems characterize the arrays that are decoded: those without a pair (respectively a vector) at the origin, and for them the bounds hold (upper bound minimum+maximum, which is maximum when the minimum is 0, as in every use)."
  },
  {
   "property": "C08",
   "status": "proved",
   "theorems": [
    "Efax.C08_roundtrip",
    "Efax.C08_decode_real",
    "Efax.C08_decode_complex_exact",
    "Efax.C08_decode_complex_partial",
    "Efax.C08_hermitian_counterexample"
   ],
   "note": "Real symmetric matrices: full claim. Complex matrices, in both modes: both round trips hold, and the decoded matrix has the declared symmetry if and only if the support is not Hermitian or every coordinate for the imaginary part of a diagonal entry is 0; so the code violates the claim for Hermitian supports (counterexample)."
  },
  {
   "property": "C09",
   "status": "proved",
   "theorems": [
    "Efax.C09_triangular_lengths"
   ],
   "note": ""
  },
  {
   "property": "C10",
   "status": "proved",
   "theorems": [
    "Efax.C10_clamp",
    "Efax.C10_clamp_idempotent",
    "Efax.C10_clamp_monotone",
    "Efax.C10_support_clamp"
   ],
   "note": ""
  },
  {
   "property": "C11",
   "status": "proved",
   "theorems": [
    "Efax.C11_clamp_exact",
    "Efax.C11_clamp_partial",
    "Efax.C11_clamp_counterexample"
   ],
   "note": "The code violates the claim in every dimension at least 2 (counterexample at a vertex). C11_clamp_exact says for which non-negative vectors it holds, as an equivalence; entries are always positive and below one."
  },
  {
   "property": "C12",
   "status": "proved",
   "theorems": [
    "Efax.C12_simplex_counterexample",
    "Efax.C12_unflattened_exact"
   ],
   "note": "The code violates the claim for every value: the negation is proved for all dimensions, batch shapes and values; the decoder accepts exactly the arrays with one coordinate more than num_elements."
  },
  {
   "property": "C13",
   "status": "proved",
   "theorems": [
    "Efax.C13_parameters",
    "Efax.C13_partition",
    "Efax.C13_no_recursion"
   ],
   "note": ""
  },
  {
   "property": "C14",
   "status": "proved",
   "theorems": [
    "Efax.C14_assemble_parameters",
    "Efax.C14_assemble_values",
    "Efax.C14_missing_path"
   ],
   "note": ""
  },
  {
   "property": "C15",
   "status": "proved",
   "theorems": [
    "Efax.C15_getitem",
    "Efax.C15_getitem_defined",
    "Efax.C15_getitem_nested"
   ],
   "note": "Keys are tuples of in-range non-negative integers (slices and arrays as keys are not modelled)."
  },
  {
   "property": "C16",
   "status": "proved",
   "theorems": [
    "Efax.C16_map",
    "Efax.C16_map_identity",
    "Efax.C16_map_comp",
    "Efax.C16_mismatch"
   ],
   "note": "The operation is an arbitrary function on arrays."
  },
  {
   "property": "C17",
   "status": "proved",
   "theorems": [
    "Efax.C17_mean",
    "Efax.C17_mean_defined",
    "Efax.C17_mean_of_copies"
   ],
   "note": "axis is None or a tuple of possibly negative axes (one axis is a tuple with one member). For integer and boolean fixed parameters the mean is a real array, as in JAX. A mean over an empty axis (NaN in JAX) is an error of the model."
  },
  {
   "property": "C18",
   "status": "proved",
   "theorems": [
    "Efax.C18_dot",
    "Efax.C18_linear_left",
    "Efax.C18_symm",
    "Efax.C18_linear_right",
    "Efax.C18_fixed_ignored",
    "Efax.C18_joint",
    "Efax.C18_only_if"
   ],
   "note": "Corresponding parameters are assumed to have equal shapes in the laws; C18_only_if says when the product (which may broadcast) is defined at all. Symmetry and additivity are included."
  },
  {
   "property": "C19",
   "status": "proved",
   "theorems": [
    "Efax.C19_classes",
    "Efax.C19_fields",
    "Efax.C19_families",
    "Efax.C19_to_exp",
    "Efax.C19_to_nat",
    "Efax.C19_inverse",
    "Efax.C19_to_exp_defined",
    "Efax.C19_to_nat_defined",
    "Efax.C19_commute"
   ],
   "note": "Structure conversion, the class table, and commutation with conversion of distributions for any leaf conversion that keeps the dimension."
  },
  {
   "property": "C20",
   "status": "proved",
   "theorems": [
    "Efax.C20_reinterpret",
    "Efax.C20_reinterpret_back",
    "Efax.C20_wrong_count"
   ],
   "note": ""
  },
  {
   "property": "C21",
   "status": "proved",
   "theorems": [
    "Efax.C21_domain_support",
    "Efax.C21_simple_classes"
   ],
   "note": ""
  },
  {
   "property": "C22",
   "status": "proved",
   "theorems": [
    "Efax.C22_generate_random",
    "Efax.C22_open_bounds",
    "Efax.C22_pseudo_precision",
    "Efax.C22_disk_negation",
    "Efax.C22_integral_negation",
    "Efax.C22_not_implemented",
    "Efax.C22_not_a_distribution"
   ],
   "note": "Every distribution, simple or joint, without a VonMisesFisherEP, every batch shape and every random stream in the ranges of the primitive generators (NumPy's exponential, uniform, normal, binomial); with complex parameters the stream must not draw the complex number zero. Violated by VonMisesFisherEP, whose disk inherits the generator of unbounded vectors (C22_disk_negation), and by integral rings with a maximum (C22_integral_negation); simplex and square matrix supports have no generator (C22_not_implemented). C22_not_a_distribution: some declared supports are larger than the set of valid parameters."
  },
  {
   "property": "C23",
   "status": "proved",
   "theorems": [
    "Efax.C23_unflatten_flatten",
    "Efax.C23_empty_lost",
    "Efax.C23_flatten_unflatten"
   ],
   "note": "Dictionary equality ignores order, hence the permutation in the second direction."
  },
  {
   "property": "C24",
   "status": "proved",
   "theorems": [
    "Efax.C24_join"
   ],
   "note": ""
  },
  {
   "property": "C25",
   "status": "proved",
   "theorems": [
    "Efax.C25_estimator",
    "Efax.C25_estimator_from_natural",
    "Efax.C25_simple_estimator"
   ],
   "note": "The leaf statistics are an arbitrary function; equivalence in both directions, so a missing leaf observation raises."
  },
  {
   "property": "C26",
   "status": "proved",
   "theorems": [
    "Efax.C26_sample",
    "Efax.C26_nesting",
    "Efax.C26_defined",
    "Efax.C26_distinct_keys",
    "Efax.C26_as_dict"
   ],
   "note": "Keys are abstract; that split returns distinct fresh keys is a hypothesis about jax.random where it is used (C26_distinct_keys)."
  },
  {
   "property": "C27",
   "status": "proved",
   "theorems": [
    "Efax.C27_to_exp",
    "Efax.C27_to_nat",
    "Efax.C27_unflatten",
    "Efax.C27_parameter_map",
    "Efax.C27_sufficient_statistics",
    "Efax.C27_sufficient_statistics_from_natural"
   ],
   "note": "All distributions, simple or joint: to_exp, to_nat (with any minimizer), unflatten of any array by the flattener of the distribution, parameter_map with any operation, and sufficient statistics of any observation by the estimators made from a natural or an expectation parametrization. For the statistics the fixed parameters are repeated (broadcast) along the axes of the observations."
  },
  {
   "property": "C28",
   "status": "proved",
   "theorems": [
    "Efax.C28_complex_unit",
    "Efax.C28_complex_normal",
    "Efax.C28_cmv_unit",
    "Efax.C28_cmv_circular",
    "Efax.C28_bernoulli",
    "Efax.C28_poisson",
    "Efax.C28_negative_binomial",
    "Efax.C28_geometric",
    "Efax.C28_logarithmic",
    "Efax.C28_multinomial",
    "Efax.C28_mv_unit",
    "Efax.C28_mv_fixed",
    "Efax.C28_mv_diagonal",
    "Efax.C28_mv_isotropic",
    "Efax.C28_mv_normal",
    "Efax.C28_normal",
    "Efax.C28_unit_normal",
    "Efax.C28_exponential",
    "Efax.C28_gamma",
    "Efax.C28_chi_square",
    "Efax.C28_chi",
    "Efax.C28_rayleigh",
    "Efax.C28_weibull",
    "Efax.C28_dirichlet",
    "Efax.C28_beta",
    "Efax.C28_gen_dirichlet",
    "Efax.C28_von_mises_fisher"
   ],
   "note": "Proved for Bernoulli, Poisson, geometric, negative binomial, multinomial (any number of categories), logarithmic, exponential, gamma, chi-square, chi, Rayleigh, Weibull, normal, unit normal (scalar), Dirichlet (any dimension), beta, generalized Dirichlet (any dimension), multivariate normal (any dimension) with unit, fixed, isotropic, diagonal and arbitrary variance, complex normal (scalar, with pseudo-variance), complex unit normal, complex multivariate unit normal and circularly symmetric complex normal (any dimension), and von Mises-Fisher (any dimension, non-zero parameter). That is every family of the library."
  },
  {
   "property": "C29",
   "status": "proved",
   "theorems": [
    "Efax.C29_complex_unit",
    "Efax.C29_complex_normal",
    "Efax.C29_cmv_unit",
    "Efax.C29_cmv_circular",
    "Efax.C29_bernoulli",
    "Efax.C29_poisson",
    "Efax.C29_negative_binomial",
    "Efax.C29_geometric",
    "Efax.C29_logarithmic",
    "Efax.C29_multinomial",
    "Efax.C29_mv_unit",
    "Efax.C29_mv_fixed",
    "Efax.C29_mv_diagonal",
    "Efax.C29_mv_isotropic",
    "Efax.C29_mv_normal",
    "Efax.C29_normal",
    "Efax.C29_unit_normal",
    "Efax.C29_exponential",
    "Efax.C29_gamma",
    "Efax.C29_chi_square",
    "Efax.C29_chi",
    "Efax.C29_rayleigh",
    "Efax.C29_weibull",
    "Efax.C29_dirichlet",
    "Efax.C29_beta",
    "Efax.C29_gen_dirichlet",
    "Efax.C29_von_mises_fisher"
   ],
   "note": "Proved for Bernoulli, Poisson, geometric, negative binomial, multinomial (any number of categories), logarithmic, exponential, gamma, chi-square, chi, Rayleigh, Weibull, normal, unit normal (scalar), Dirichlet (any dimension), beta, generalized Dirichlet (any dimension), multivariate normal (any dimension) with unit, fixed, isotropic, diagonal and arbitrary variance, complex normal (scalar, with pseudo-variance), complex unit normal, complex multivariate unit normal and circularly symmetric complex normal (any dimension), and von Mises-Fisher (any dimension, non-zero parameter). That is every family of the library."
  },
  {
   "property": "C30",
   "status": "proved",
   "theorems": [
    "Efax.C30_complex_unit",
    "Efax.C30_cmv_unit",
    "Efax.C30_complex_normal",
    "Efax.C30_cmv_circular",
    "Efax.C30_bernoulli",
    "Efax.C30_poisson",
    "Efax.C30_negative_binomial",
    "Efax.C30_geometric",
    "Efax.C30_logarithmic",
    "Efax.C30_multinomial",
    "Efax.C30_mv_diagonal",
    "Efax.C30_mv_isotropic",
    "Efax.C30_mv_fixed",
    "Efax.C30_mv_unit",
    "Efax.C30_mv_normal",
    "Efax.C30_normal",
    "Efax.C30_unit_normal",
    "Efax.C30_exponential",
    "Efax.C30_gamma",
    "Efax.C30_chi_square",
    "Efax.C30_chi",
    "Efax.C30_rayleigh",
    "Efax.C30_weibull",
    "Efax.C30_dirichlet",
    "Efax.C30_beta",
    "Efax.C30_gen_dirichlet",
    "Efax.C30_von_mises_fisher"
   ],
   "note": "Proved for Bernoulli, Poisson, geometric, negative binomial, multinomial (any number of categories), logarithmic, exponential, gamma, chi-square, chi, Rayleigh, Weibull, normal, unit normal (scalar), Dirichlet (any dimension), beta, generalized Dirichlet (any dimension), multivariate normal (any dimension) with unit, fixed, isotropic, diagonal and arbitrary variance, complex normal (scalar, with pseudo-variance), complex unit normal, complex multivariate unit normal and circularly symmetric complex normal (any dimension), and von Mises-Fisher (any dimension, non-zero parameter). That is every family of the library."
  },
  {
   "property": "C31",
   "status": "proved",
   "theorems": [
    "Efax.C31_complex_unit",
    "Efax.C31_cmv_unit",
    "Efax.C31_complex_normal",
    "Efax.C31_cmv_circular",
    "Efax.C31_bernoulli",
    "Efax.C31_poisson",
    "Efax.C31_negative_binomial",
    "Efax.C31_geometric",
    "Efax.C31_multinomial",
    "Efax.C31_exponential",
    "Efax.C31_rayleigh",
    "Efax.C31_weibull",
    "Efax.C31_normal",
    "Efax.C31_unit_normal",
    "Efax.C31_mv_unit",
    "Efax.C31_mv_fixed",
    "Efax.C31_mv_diagonal",
    "Efax.C31_mv_isotropic",
    "Efax.C31_mv_normal"
   ],
   "note": "Bernoulli, Poisson, negative binomial, geometric, multinomial, exponential, Rayleigh, Weibull, normal, unit normal, the five multivariate normals, and the four complex normals: every family with a closed-form to_nat."
  },
  {
   "property": "C32",
   "status": "proved",
   "theorems": [
    "Efax.C32_inverses",
    "Efax.C32_chi_square",
    "Efax.C32_chi",
    "Efax.C32_chi_square_exists",
    "Efax.C32_dirichlet",
    "Efax.C32_beta",
    "Efax.C32_gen_dirichlet",
    "Efax.C32_gamma",
    "Efax.C32_gamma_domain",
    "Efax.C32_gamma_initial",
    "Efax.C32_logarithmic",
    "Efax.C32_logarithmic_exists",
    "Efax.C32_von_mises_fisher",
    "Efax.C32_von_mises_fisher_exists",
    "Efax.C32_von_mises_fisher_initial",
    "Efax.C32_search_valid",
    "Efax.C32_gradient_zero_iff"
   ],
   "note": "Every search-based family: von Mises-Fisher (with existence for every mean strictly inside the unit ball except zero, where the code divides by zero), Gamma (with the exact mean domain), chi-square, chi, Dirichlet, beta, generalized Dirichlet, logarithmic; and the generic batched search at the level of whole distributions (C32_search_valid, C32_gradient_zero_iff; C51_search for batches: one search per entry). The convergence of the root finder itself is outside the model (numerical library)."
  },
  {
   "property": "C33",
   "status": "proved",
   "theorems": [
    "Efax.C33_complex_unit",
    "Efax.C33_complex_normal",
    "Efax.C33_cmv_unit",
    "Efax.C33_cmv_circular",
    "Efax.C33_bernoulli",
    "Efax.C33_poisson",
    "Efax.C33_negative_binomial",
    "Efax.C33_geometric",
    "Efax.C33_logarithmic",
    "Efax.C33_multinomial",
    "Efax.C33_mv_unit",
    "Efax.C33_mv_fixed",
    "Efax.C33_mv_diagonal",
    "Efax.C33_mv_isotropic",
    "Efax.C33_mv_normal",
    "Efax.C33_normal",
    "Efax.C33_unit_normal",
    "Efax.C33_exponential",
    "Efax.C33_gamma",
    "Efax.C33_chi_square",
    "Efax.C33_chi",
    "Efax.C33_rayleigh",
    "Efax.C33_weibull",
    "Efax.C33_dirichlet",
    "Efax.C33_beta",
    "Efax.C33_gen_dirichlet",
    "Efax.C33_von_mises_fisher",
    "Efax.C33_von_mises_fisher_range"
   ],
   "note": "Proved for Bernoulli, Poisson, geometric, negative binomial, multinomial (any number of categories), logarithmic, exponential, gamma, chi-square, chi, Rayleigh, Weibull, normal, unit normal (scalar), Dirichlet (any dimension), beta, generalized Dirichlet (any dimension), multivariate normal (any dimension) with unit, fixed, isotropic, diagonal and arbitrary variance, complex normal (scalar, with pseudo-variance), complex unit normal, complex multivariate unit normal and circularly symmetric complex normal (any dimension), and von Mises-Fisher (any dimension, non-zero parameter). That is every family of the library."
  },
  {
   "property": "C34",
   "status": "proved",
   "theorems": [
    "Efax.C34_parametrizations_agree",
    "Efax.C34_complex_unit",
    "Efax.C34_complex_normal",
    "Efax.C34_cmv_unit",
    "Efax.C34_cmv_circular",
    "Efax.C34_bernoulli",
    "Efax.C34_poisson",
    "Efax.C34_negative_binomial",
    "Efax.C34_geometric",
    "Efax.C34_logarithmic",
    "Efax.C34_multinomial",
    "Efax.C34_mv_unit",
    "Efax.C34_mv_fixed",
    "Efax.C34_mv_diagonal",
    "Efax.C34_mv_isotropic",
    "Efax.C34_mv_normal",
    "Efax.C34_normal",
    "Efax.C34_unit_normal",
    "Efax.C34_exponential",
    "Efax.C34_gamma",
    "Efax.C34_chi_square",
    "Efax.C34_chi",
    "Efax.C34_rayleigh",
    "Efax.C34_weibull",
    "Efax.C34_dirichlet",
    "Efax.C34_beta",
    "Efax.C34_gen_dirichlet",
    "Efax.C34_von_mises_fisher"
   ],
   "note": "Proved for Bernoulli, Poisson, geometric, negative binomial, multinomial (any number of categories), logarithmic, exponential, gamma, chi-square, chi, Rayleigh, Weibull, normal, unit normal (scalar), Dirichlet (any dimension), beta, generalized Dirichlet (any dimension), multivariate normal (any dimension) with unit, fixed, isotropic, diagonal and arbitrary variance, complex normal (scalar, with pseudo-variance), complex unit normal, complex multivariate unit normal and circularly symmetric complex normal (any dimension), and von Mises-Fisher (any dimension, non-zero parameter). That is every family of the library."
  },
  {
   "property": "C35",
   "status": "proved",
   "theorems": [
    "Efax.C35_parametrizations_agree",
    "Efax.C35_complex_unit",
    "Efax.C35_complex_normal",
    "Efax.C35_cmv_unit",
    "Efax.C35_cmv_circular",
    "Efax.C35_bernoulli",
    "Efax.C35_geometric",
    "Efax.C35_multinomial",
    "Efax.C35_mv_unit",
    "Efax.C35_mv_fixed",
    "Efax.C35_mv_diagonal",
    "Efax.C35_mv_isotropic",
    "Efax.C35_mv_normal",
    "Efax.C35_normal",
    "Efax.C35_unit_normal",
    "Efax.C35_exponential",
    "Efax.C35_gamma",
    "Efax.C35_chi_square",
    "Efax.C35_chi",
    "Efax.C35_rayleigh",
    "Efax.C35_weibull",
    "Efax.C35_dirichlet",
    "Efax.C35_beta",
    "Efax.C35_gen_dirichlet",
    "Efax.C35_von_mises_fisher"
   ],
   "note": "Proved for every family with entropy."
  },
  {
   "property": "C36",
   "status": "proved",
   "theorems": [
    "Efax.C36_bernoulli",
    "Efax.C36_geometric",
    "Efax.C36_multinomial",
    "Efax.C36_exponential",
    "Efax.C36_gamma",
    "Efax.C36_chi_square",
    "Efax.C36_chi",
    "Efax.C36_rayleigh",
    "Efax.C36_weibull",
    "Efax.C36_normal",
    "Efax.C36_unit_normal",
    "Efax.C36_dirichlet",
    "Efax.C36_beta",
    "Efax.C36_gen_dirichlet",
    "Efax.C36_complex_unit",
    "Efax.C36_cmv_unit",
    "Efax.C36_complex_normal",
    "Efax.C36_cmv_circular",
    "Efax.C36_mv_diagonal",
    "Efax.C36_mv_isotropic",
    "Efax.C36_mv_fixed",
    "Efax.C36_mv_unit",
    "Efax.C36_mv_normal",
    "Efax.C36_von_mises_fisher"
   ],
   "note": "Proved for every family with entropy."
  },
  {
   "property": "C37",
   "status": "proved",
   "theorems": [
    "Efax.C37_log_normalizer",
    "Efax.C37_log_pdf",
    "Efax.C37_kl_natural",
    "Efax.C37_kl_expectation",
    "Efax.C37_cross_entropy",
    "Efax.C37_entropy_natural",
    "Efax.C37_entropy_expectation",
    "Efax.C37_nesting",
    "Efax.C37_to_exp",
    "Efax.C37_to_exp_parts",
    "Efax.C37_to_nat",
    "Efax.C37_to_nat_parts",
    "Efax.C37_to_exp_to_nat",
    "Efax.C37_to_exp_to_nat_parts",
    "Efax.C37_to_nat_to_exp",
    "Efax.C37_to_nat_to_exp_parts",
    "Efax.C37_to_exp_to_nat_batch",
    "Efax.C37_to_nat_to_exp_batch"
   ],
   "note": "Every joint distribution of any classes, number of parts and nesting, and every batch shape: log_normalizer, log_pdf, kl_divergence, cross_entropy and entropy are the sums over the simple distributions that it consists of (C37_log_normalizer, ...); objects with the same simple distributions agree however they are nested (C37_nesting); to_exp and to_nat act on each simple distribution and are mutually inverse when those of the simple distributions are. Sums are over the real numbers (no rounding)."
  },
  {
   "property": "C38",
   "status": "proved",
   "theorems": [
    "Efax.C38_bernoulli",
    "Efax.C38_poisson",
    "Efax.C38_multinomial",
    "Efax.C38_unit_normal",
    "Efax.C38_mv_unit",
    "Efax.C38_mv_fixed",
    "Efax.C38_likelihood",
    "Efax.C38_exponential_negation",
    "Efax.C38_exponential_rate"
   ],
   "note": "Bernoulli, Poisson, multinomial (any number of categories), unit normal, multivariate unit and fixed-variance normals: the prior is a valid parameter, its log density is n times the expected log-likelihood up to a constant, the observation is its mode, and it is proportional to the likelihood of data. The exponential family violates the property: refuted for every mean and every number of observations (C38_exponential_negation), and for the rate reading unless the mean is 1 (C38_exponential_rate)."
  },
  {
   "property": "C39",
   "status": "proved",
   "theorems": [
    "Efax.C39_mv_unit",
    "Efax.C39_mv_fixed",
    "Efax.C39_multinomial_negation",
    "Efax.C39_multinomial_length",
    "Efax.C39_multinomial_pair",
    "Efax.C39_multinomial_raises"
   ],
   "note": "Multivariate unit and fixed-variance normals in any dimension. The multinomial violates the property in every dimension (C39_multinomial_negation, C39_multinomial_raises)."
  },
  {
   "property": "C40",
   "status": "proved",
   "theorems": [
    "Efax.C40_mv_diagonal_conversions",
    "Efax.C40_mv_diagonal_back",
    "Efax.C40_mv_diagonal_moments",
    "Efax.C40_mv_normal_conversions",
    "Efax.C40_mv_normal_moments",
    "Efax.C40_normal_conversions",
    "Efax.C40_normal_back",
    "Efax.C40_normal_moments",
    "Efax.C40_gamma_conversions",
    "Efax.C40_gamma_back",
    "Efax.C40_gamma_moments"
   ],
   "note": "Normal, gamma, and the diagonal and arbitrary multivariate normals in any dimension."
  },
  {
   "property": "C41",
   "status": "proved",
   "theorems": [
    "Efax.C41_chi",
    "Efax.C41_rayleigh",
    "Efax.C41_weibull",
    "Efax.C41_rayleigh_documented",
    "Efax.C41_chi_log",
    "Efax.C41_chi_documented_negation"
   ],
   "note": "The laws are proved by a change of variables; the documented meaning of the chi parameter is refuted with a witness (C41_chi_documented_negation)."
  },
  {
   "property": "C42",
   "status": "proved",
   "theorems": [
    "Efax.C42_complex_unit",
    "Efax.C42_complex_normal",
    "Efax.C42_cmv_unit",
    "Efax.C42_cmv_circular",
    "Efax.C42_bernoulli",
    "Efax.C42_poisson",
    "Efax.C42_negative_binomial",
    "Efax.C42_geometric",
    "Efax.C42_logarithmic",
    "Efax.C42_multinomial",
    "Efax.C42_mv_unit",
    "Efax.C42_mv_fixed",
    "Efax.C42_mv_diagonal",
    "Efax.C42_mv_isotropic",
    "Efax.C42_mv_normal",
    "Efax.C42_normal",
    "Efax.C42_unit_normal",
    "Efax.C42_exponential",
    "Efax.C42_gamma",
    "Efax.C42_chi_square",
    "Efax.C42_chi",
    "Efax.C42_rayleigh",
    "Efax.C42_weibull",
    "Efax.C42_dirichlet",
    "Efax.C42_beta",
    "Efax.C42_gen_dirichlet",
    "Efax.C42_von_mises_fisher",
    "Efax.C42_flat_bernoulli",
    "Efax.C42_flat_poisson",
    "Efax.C42_flat_geometric",
    "Efax.C42_flat_logarithmic",
    "Efax.C42_logarithmic_below_limit",
    "Efax.C42_flat_negative_binomial",
    "Efax.C42_flat_multinomial",
    "Efax.C42_flat_exponential",
    "Efax.C42_flat_chi_square",
    "Efax.C42_flat_chi",
    "Efax.C42_flat_rayleigh",
    "Efax.C42_flat_gamma",
    "Efax.C42_flat_weibull",
    "Efax.C42_flat_normal",
    "Efax.C42_flat_unit_normal",
    "Efax.C42_flat_dirichlet",
    "Efax.C42_flat_beta",
    "Efax.C42_flat_gen_dirichlet",
    "Efax.C42_flat_von_mises_fisher",
    "Efax.C42_flat_mv_unit",
    "Efax.C42_flat_mv_fixed",
    "Efax.C42_flat_mv_diagonal",
    "Efax.C42_flat_mv_isotropic",
    "Efax.C42_flat_mv_normal",
    "Efax.C42_flat_complex_unit",
    "Efax.C42_flat_complex_normal",
    "Efax.C42_flat_cmv_unit",
    "Efax.C42_circular",
    "Efax.C42_not_flat_circular",
    "Efax.C42_circular_jeffreys"
   ],
   "note": "Proved for Bernoulli, Poisson, geometric, negative binomial, multinomial (any number of categories), logarithmic, exponential, gamma, chi-square, chi, Rayleigh, Weibull, normal, unit normal (scalar), Dirichlet (any dimension), beta, generalized Dirichlet (any dimension), multivariate normal (any dimension) with unit, fixed, isotropic, diagonal and arbitrary variance, complex normal (scalar, with pseudo-variance), complex unit normal, complex multivariate unit normal and circularly symmetric complex normal (any dimension), and von Mises-Fisher (any dimension, non-zero parameter), as the second directional derivatives in all pairs of directions. That is every family of the library. For every family but the circularly symmetric complex normal also for the matrix that the code returns (with the custom rule of differentiation of log_normalizer), in flat coordinates and for every batch (C42_flat_*; the logarithmic distribution strictly between the limits of to_exp, C42_logarithmic_below_limit below). For the circularly symmetric complex normal that matrix is not the covariance (C42_not_flat_circular, C42_circular_jeffreys); C42_circular says what it is."
  },
  {
   "property": "C43",
   "status": "proved",
   "theorems": [
    "Efax.C43_trace_matrix",
    "Efax.C43_trace_complex_matrix",
    "Efax.C43_diagonal",
    "Efax.C43_not_bounded",
    "Efax.C43_not_batch",
    "Efax.C43_not_exponential",
    "Efax.C43_trace"
   ],
   "note": "Violated. C43_diagonal: holds for one distribution, simple or joint, without bounded variable parameters. C43_not_bounded: fails whenever some class in the tree has one (and nonzero dimensions), because the diagonal is passed through the plane map; C43_not_exponential is an instance. C43_not_batch: fails for every batch with an extent other than the number of flat coordinates, because the diagonal of the first two axes is taken. C43_trace: fisher_information_trace sums the entries of every parameter of the diagonal (the upper triangle of matrices: C43_trace_matrix, C43_trace_complex_matrix), and the results add up to the trace of the Fisher information."
  },
  {
   "property": "C44",
   "status": "proved",
   "theorems": [
    "Efax.C44_complex_unit",
    "Efax.C44_complex_normal",
    "Efax.C44_cmv_unit",
    "Efax.C44_cmv_circular",
    "Efax.C44_cone_univ",
    "Efax.C44_cone_negative",
    "Efax.C44_cone_normal",
    "Efax.C44_cone_mv_isotropic",
    "Efax.C44_cone_mv_diagonal",
    "Efax.C44_cone_mv_normal",
    "Efax.C44_cone_complex_normal",
    "Efax.C44_cone_cmv_circular",
    "Efax.C44_gamma_not_cone",
    "Efax.C44_dirichlet_not_cone",
    "Efax.C44_bernoulli",
    "Efax.C44_poisson",
    "Efax.C44_negative_binomial",
    "Efax.C44_geometric",
    "Efax.C44_logarithmic",
    "Efax.C44_multinomial",
    "Efax.C44_mv_unit",
    "Efax.C44_mv_fixed",
    "Efax.C44_mv_diagonal",
    "Efax.C44_mv_isotropic",
    "Efax.C44_mv_normal",
    "Efax.C44_normal",
    "Efax.C44_unit_normal",
    "Efax.C44_exponential",
    "Efax.C44_gamma",
    "Efax.C44_chi_square",
    "Efax.C44_chi",
    "Efax.C44_rayleigh",
    "Efax.C44_weibull",
    "Efax.C44_dirichlet",
    "Efax.C44_beta",
    "Efax.C44_gen_dirichlet",
    "Efax.C44_von_mises_fisher"
   ],
   "note": "Proved for Bernoulli, Poisson, geometric, negative binomial, multinomial (any number of categories), logarithmic, exponential, gamma, chi-square, chi, Rayleigh, Weibull, normal, unit normal (scalar), Dirichlet (any dimension), beta, generalized Dirichlet (any dimension), multivariate normal (any dimension) with unit, fixed, isotropic, diagonal and arbitrary variance, complex normal (scalar, with pseudo-variance), complex unit normal, complex multivariate unit normal and circularly symmetric complex normal (any dimension), and von Mises-Fisher (any dimension, non-zero parameter). That is every family of the library. C44_cone_*: the natural domains that are cones; C44_gamma_not_cone, C44_dirichlet_not_cone: the others."
  },
  {
   "property": "C45",
   "status": "proved",
   "theorems": [
    "Efax.C45_complex_unit",
    "Efax.C45_complex_normal",
    "Efax.C45_cmv_unit",
    "Efax.C45_cmv_circular",
    "Efax.C45_bernoulli",
    "Efax.C45_poisson",
    "Efax.C45_negative_binomial",
    "Efax.C45_geometric",
    "Efax.C45_logarithmic",
    "Efax.C45_multinomial",
    "Efax.C45_mv_unit",
    "Efax.C45_mv_fixed",
    "Efax.C45_mv_diagonal",
    "Efax.C45_mv_isotropic",
    "Efax.C45_mv_normal",
    "Efax.C45_normal",
    "Efax.C45_unit_normal",
    "Efax.C45_exponential",
    "Efax.C45_gamma",
    "Efax.C45_chi_square",
    "Efax.C45_chi",
    "Efax.C45_rayleigh",
    "Efax.C45_weibull",
    "Efax.C45_dirichlet",
    "Efax.C45_beta",
    "Efax.C45_gen_dirichlet",
    "Efax.C45_von_mises_fisher"
   ],
   "note": "Proved for Bernoulli, Poisson, geometric, negative binomial, multinomial (any number of categories), logarithmic, exponential, gamma, chi-square, chi, Rayleigh, Weibull, normal, unit normal (scalar), Dirichlet (any dimension), beta, generalized Dirichlet (any dimension), multivariate normal (any dimension) with unit, fixed, isotropic, diagonal and arbitrary variance, complex normal (scalar, with pseudo-variance), complex unit normal, complex multivariate unit normal and circularly symmetric complex normal (any dimension), and von Mises-Fisher (any dimension, non-zero parameter). That is every family of the library."
  },
  {
   "property": "C46",
   "status": "proved",
   "theorems": [
    "Efax.C46_factor_exists",
    "Efax.C46_complex_normal_cov",
    "Efax.C46_complex_normal",
    "Efax.C46_cmv_circular_cov",
    "Efax.C46_cmv_circular",
    "Efax.C46_bernoulli_nat",
    "Efax.C46_bernoulli_exp",
    "Efax.C46_poisson_exp",
    "Efax.C46_poisson_nat",
    "Efax.C46_negative_binomial_exp",
    "Efax.C46_negative_binomial_nat",
    "Efax.C46_beta",
    "Efax.C46_dirichlet",
    "Efax.C46_exponential_nat",
    "Efax.C46_exponential_exp",
    "Efax.C46_gamma_nat",
    "Efax.C46_gamma_var",
    "Efax.C46_chi_square",
    "Efax.C46_rayleigh_nat",
    "Efax.C46_rayleigh_exp",
    "Efax.C46_weibull_exp",
    "Efax.C46_weibull_nat",
    "Efax.C46_normal_var",
    "Efax.C46_normal_exp",
    "Efax.C46_normal_nat",
    "Efax.C46_unit_normal",
    "Efax.C46_mv_diagonal_var",
    "Efax.C46_mv_diagonal_exp",
    "Efax.C46_mv_diagonal_nat",
    "Efax.C46_mv_fixed_exp",
    "Efax.C46_mv_fixed_nat",
    "Efax.C46_mv_unit",
    "Efax.C46_mv_isotropic_exp",
    "Efax.C46_mv_isotropic_nat",
    "Efax.C46_mv_normal_exp"
   ],
   "note": "The law of the sampler, as a measure, equals the law with density pdf, given the documented laws of the primitives of jax.random: exponential, gamma, chi-square, Rayleigh, Weibull, normal and unit normal, the five multivariate normals in any dimension, Bernoulli, Poisson, negative binomial (the gamma-Poisson mixture), beta, Dirichlet, complex normal, circularly symmetric complex normal. The factorization used by jax.random.multivariate_normal is arbitrary; one exists (C46_factor_exists). Multinomial, geometric and complex unit normals: see C47-C49."
  },
  {
   "property": "C47",
   "status": "proved",
   "theorems": [
    "Efax.C47_multinomial_negation",
    "Efax.C47_multinomial_conditional"
   ],
   "note": "The code violates the property: refuted for every log-odds vector and every number of categories (C47_multinomial_negation); what the sampler draws from instead is the distribution conditional on not being the last category (C47_multinomial_conditional)."
  },
  {
   "property": "C48",
   "status": "proved",
   "theorems": [
    "Efax.C48_geometric_negation",
    "Efax.C48_geometric_shift",
    "Efax.C48_geometric_invalid"
   ],
   "note": "The code violates the property: refuted for every mean (C48_geometric_negation); for means above one the sampler draws one plus a geometric variable of mean m - 1 (C48_geometric_shift); below one it passes a success probability above one (C48_geometric_invalid)."
  },
  {
   "property": "C49",
   "status": "proved",
   "theorems": [
    "Efax.C49_complex_unit_law",
    "Efax.C49_complex_unit_moments",
    "Efax.C49_complex_unit_negation",
    "Efax.C49_cmv_unit_law",
    "Efax.C49_cmv_unit_moments",
    "Efax.C49_cmv_unit_negation"
   ],
   "note": "The code violates the property: for every mean the sampler's variance is 2 and its pseudo-variance 2i where the distribution has 1 and 0 (C49_*_moments, C49_*_law, C49_*_negation), in one and in any positive number of components."
  },
  {
   "property": "C50",
   "status": "proved",
   "theorems": [
    "Efax.C50_arity_natural",
    "Efax.C50_arity_expectation",
    "Efax.C50_arity_variance",
    "Efax.C50_arity_search",
    "Efax.C50_shape_natural",
    "Efax.C50_shape_expectation",
    "Efax.C50_shape_variance",
    "Efax.C50_gamma_variance_negation"
   ],
   "note": "Every natural and expectation class, simple or joint, and every batch shape; the variance parametrizations of the normal families. GammaVP violates the property (C50_gamma_variance_negation). With a wrong number of parameters no method has a result (C50_arity_*)."
  },
  {
   "property": "C51",
   "status": "proved",
   "theorems": [
    "Efax.C51_complex_normal",
    "Efax.C51_complex_normal_exp",
    "Efax.C51_complex_unit",
    "Efax.C51_complex_unit_exp",
    "Efax.C51_cmv_unit",
    "Efax.C51_cmv_unit_exp",
    "Efax.C51_cmv_circular",
    "Efax.C51_cmv_circular_exp",
    "Efax.C51_poisson_exp",
    "Efax.C51_negative_binomial_exp",
    "Efax.C51_logarithmic",
    "Efax.C51_logarithmic_exp",
    "Efax.C51_gamma_exp",
    "Efax.C51_chi_square_exp",
    "Efax.C51_chi_exp",
    "Efax.C51_dirichlet_exp",
    "Efax.C51_gen_dirichlet_exp",
    "Efax.C51_von_mises_exp",
    "Efax.C51_gamma_var",
    "Efax.C51_normal_var",
    "Efax.C51_mv_diagonal_var",
    "Efax.C51_mv_normal_var",
    "Efax.C51_bernoulli_probability",
    "Efax.C51_multinomial_probability",
    "Efax.C51_normal",
    "Efax.C51_normal_exp",
    "Efax.C51_unit_normal",
    "Efax.C51_unit_normal_exp",
    "Efax.C51_mv_unit",
    "Efax.C51_mv_unit_exp",
    "Efax.C51_mv_fixed",
    "Efax.C51_mv_fixed_exp",
    "Efax.C51_mv_diagonal",
    "Efax.C51_mv_diagonal_exp",
    "Efax.C51_mv_isotropic",
    "Efax.C51_mv_isotropic_exp",
    "Efax.C51_mv_normal",
    "Efax.C51_mv_normal_exp",
    "Efax.C51_exponential",
    "Efax.C51_exponential_exp",
    "Efax.C51_gamma",
    "Efax.C51_chi_square",
    "Efax.C51_chi",
    "Efax.C51_rayleigh",
    "Efax.C51_rayleigh_exp",
    "Efax.C51_weibull",
    "Efax.C51_weibull_exp",
    "Efax.C51_bernoulli",
    "Efax.C51_bernoulli_exp",
    "Efax.C51_poisson",
    "Efax.C51_negative_binomial",
    "Efax.C51_geometric",
    "Efax.C51_geometric_exp",
    "Efax.C51_multinomial",
    "Efax.C51_multinomial_exp",
    "Efax.C51_search",
    "Efax.C51_dirichlet",
    "Efax.C51_beta",
    "Efax.C51_gen_dirichlet",
    "Efax.C51_von_mises",
    "Efax.C51_kl_with",
    "Efax.C51_kl_expectation",
    "Efax.C51_kl_natural",
    "Efax.C51_cross_entropy",
    "Efax.C51_entropy_expectation",
    "Efax.C51_entropy_natural",
    "Efax.C51_log_pdf",
    "Efax.C51_pdf",
    "Efax.C51_every_natural",
    "Efax.C51_every_natural_parts",
    "Efax.C51_every_expectation",
    "Efax.C51_every_expectation_parts",
    "Efax.C51_at_log_normalizer",
    "Efax.C51_at_to_exp",
    "Efax.C51_at_to_nat",
    "Efax.C51_at_log_pdf",
    "Efax.C51_at_kl_natural",
    "Efax.C51_at_kl_expectation",
    "Efax.C51_at_cross_entropy",
    "Efax.C51_at_entropy_natural",
    "Efax.C51_at_entropy_expectation",
    "Efax.C51_library",
    "Efax.C51_getitem_natural",
    "Efax.C51_getitem_expectation",
    "Efax.C51_log_normalizer",
    "Efax.C51_to_exp",
    "Efax.C51_to_nat",
    "Efax.C51_log_pdf_at",
    "Efax.C51_kl_natural_at",
    "Efax.C51_kl_expectation_at",
    "Efax.C51_cross_entropy_at",
    "Efax.C51_entropy_natural_at",
    "Efax.C51_entropy_expectation_at"
   ],
   "note": "Every class, simple or joint and nested to any depth, every batch shape and every index, for log_normalizer, to_exp, to_nat (closed form and by search), log_pdf, kl_divergence, cross_entropy and entropy, on every object whose parameters have the declared types and shapes (C51_log_normalizer, C51_to_exp, C51_to_nat, C51_log_pdf_at, ...). to_exp of the logarithmic family is claimed where the code does not switch to a limit, to_nat by search for parameters inside the stored bounds. The search is claimed given any minimizer that returns vectors of the length of the initial vector (C51_search)."
  },
  {
   "property": "C52",
   "status": "proved",
   "theorems": [
    "Efax.C52_bernoulli",
    "Efax.C52_multinomial",
    "Efax.C52_shift"
   ],
   "note": "Bernoulli and multinomial of any number of categories, including invariance under the max-shift."
  },
  {
   "property": "C53",
   "status": "proved",
   "theorems": [
    "Efax.C53_to_exp",
    "Efax.C53_floor",
    "Efax.C53_below_one",
    "Efax.C53_above_one",
    "Efax.C53_limit",
    "Efax.C53_one_negation",
    "Efax.C53_ceiling_negation"
   ],
   "note": "The mean is exact away from the floor and within rounding at it; the behaviour of the code at chi = 1 and above the ceiling is refuted with witnesses (negation theorems)."
  },
  {
   "property": "C54",
   "status": "proved",
   "theorems": [
    "Efax.C54_dimension",
    "Efax.C54_kappa_angle",
    "Efax.C54_mean_direction",
    "Efax.C54_uniform"
   ],
   "note": "Any dimension; also at zero. arctan2 is Complex.arg."
  },
  {
   "property": "C55",
   "status": "proved",
   "theorems": [
    "Efax.C55_complex_unit",
    "Efax.C55_complex_normal",
    "Efax.C55_cmv_unit",
    "Efax.C55_cmv_circular",
    "Efax.C55_bernoulli",
    "Efax.C55_poisson",
    "Efax.C55_negative_binomial",
    "Efax.C55_geometric",
    "Efax.C55_logarithmic",
    "Efax.C55_multinomial",
    "Efax.C55_mv_unit",
    "Efax.C55_mv_fixed",
    "Efax.C55_mv_diagonal",
    "Efax.C55_mv_isotropic",
    "Efax.C55_mv_normal",
    "Efax.C55_normal",
    "Efax.C55_unit_normal",
    "Efax.C55_exponential",
    "Efax.C55_gamma",
    "Efax.C55_chi_square",
    "Efax.C55_chi",
    "Efax.C55_rayleigh",
    "Efax.C55_weibull",
    "Efax.C55_dirichlet",
    "Efax.C55_beta",
    "Efax.C55_gen_dirichlet",
    "Efax.C55_von_mises_fisher"
   ],
   "note": "Proved for Bernoulli, Poisson, geometric, negative binomial, multinomial (any number of categories), logarithmic, exponential, gamma, chi-square, chi, Rayleigh, Weibull, normal, unit normal (scalar), Dirichlet (any dimension), beta, generalized Dirichlet (any dimension), multivariate normal (any dimension) with unit, fixed, isotropic, diagonal and arbitrary variance, complex normal (scalar, with pseudo-variance), complex unit normal, complex multivariate unit normal and circularly symmetric complex normal (any dimension), and von Mises-Fisher (any dimension, non-zero parameter). That is every family of the library. Strict convexity on the natural domain; for von Mises-Fisher, whose domain is not convex, on every convex set of non-zero parameters."
  },
  {
   "property": "C56",
   "status": "proved",
   "theorems": [
    "Efax.C56_observations_declared",
    "Efax.C56_declared_observations_partial",
    "Efax.C56_not_loose"
   ],
   "note": "Every class, dimension and batch shape. The first half holds for all classes. The second half is violated by the 23 classes listed in Spec.Loose (C56_not_loose: with at least one dimension, some declared value is not an observation) and holds for all others (C56_declared_observations_partial). Closed bounds of a support are narrowed by the machine epsilon, which is the tolerance in the first half."
  },
  {
   "property": "C57",
   "status": "proved",
   "theorems": [
    "Efax.C57_bernoulli",
    "Efax.C57_poisson",
    "Efax.C57_negative_binomial",
    "Efax.C57_geometric",
    "Efax.C57_logarithmic",
    "Efax.C57_multinomial",
    "Efax.C57_exponential",
    "Efax.C57_gamma",
    "Efax.C57_chi_square",
    "Efax.C57_chi",
    "Efax.C57_rayleigh",
    "Efax.C57_weibull",
    "Efax.C57_normal",
    "Efax.C57_unit_normal",
    "Efax.C57_dirichlet",
    "Efax.C57_beta",
    "Efax.C57_mv_normal",
    "Efax.C57_mv_diagonal",
    "Efax.C57_mv_isotropic",
    "Efax.C57_mv_fixed",
    "Efax.C57_mv_unit",
    "Efax.C57_complex_normal",
    "Efax.C57_complex_unit",
    "Efax.C57_cmv_unit",
    "Efax.C57_cmv_circular",
    "Efax.C57_gen_dirichlet",
    "Efax.C57_von_mises_fisher",
    "Efax.C57_von_mises"
   ],
   "note": "Every family, in any dimension; complex normals as normal densities of the real and imaginary parts; the generalized Dirichlet as the stick-breaking product of beta densities; von Mises-Fisher for non-zero parameters, also as a density of the angle in two dimensions."
  },
  {
   "property": "C58",
   "status": "proved",
   "theorems": [
    "Efax.C58_cmv_accepts",
    "Efax.C58_cmv_accepts_violated",
    "Efax.C58_cmv_pdf",
    "Efax.C58_cmv_entropy",
    "Efax.C58_cmv_circular_family",
    "Efax.C58_cmv_unit_family",
    "Efax.C58_cmv_rvs",
    "Efax.C58_cmv_rvs_law",
    "Efax.C58_mvn_pdf",
    "Efax.C58_mvn_entropy",
    "Efax.C58_mv_normal_family",
    "Efax.C58_complex_normal_accepts",
    "Efax.C58_complex_normal_pdf",
    "Efax.C58_complex_normal_degenerate",
    "Efax.C58_complex_normal_entropy",
    "Efax.C58_complex_normal_family",
    "Efax.C58_complex_unit_family",
    "Efax.C58_complex_normal_rvs",
    "Efax.C58_complex_normal_factor",
    "Efax.C58_complex_normal_rvs_law",
    "Efax.C58_angle_accepts",
    "Efax.C58_angle_direction"
   ],
   "note": "One distribution in any dimension (C60 is about arrays of them). The covariance of the real and the imaginary parts is Spec.ComplexMoments. rvs is a linear image of independent standard normal variables by any square root of the covariance, which is what NumPy computes. Violated in one point: ScipyComplexMultivariateNormalUnvectorized accepts pseudo-variances that no random vector has (C58_cmv_accepts_violated); everything that belongs to a distribution is accepted (C58_cmv_accepts)."
  },
  {
   "property": "C59",
   "status": "proved",
   "theorems": [
    "Efax.C59_gen_dirichlet_pdf",
    "Efax.C59_gen_dirichlet_family",
    "Efax.C59_gen_dirichlet_entropy",
    "Efax.C59_dirichlet_pdf",
    "Efax.C59_dirichlet_negative",
    "Efax.C59_dirichlet_family",
    "Efax.C59_gen_dirichlet_rvs",
    "Efax.C59_gen_dirichlet_rvs_family"
   ],
   "note": "Every number of dimensions. The entropy of the generalized Dirichlet raises (C59_gen_dirichlet_entropy). np.isclose is equality of reals."
  },
  {
   "property": "C60",
   "status": "proved",
   "theorems": [
    "Efax.C60_complex_new",
    "Efax.C60_complex_new_none",
    "Efax.C60_complex_pdf",
    "Efax.C60_complex_pdf_single",
    "Efax.C60_complex_entropy",
    "Efax.C60_complex_as_multivariate_violated",
    "Efax.C60_from_mc",
    "Efax.C60_from_mc_pdf",
    "Efax.C60_from_mc_pdf_single",
    "Efax.C60_from_mc_entropy",
    "Efax.C60_from_mc_rvs",
    "Efax.C60_cmv_new",
    "Efax.C60_cmv_pdf",
    "Efax.C60_cmv_entropy",
    "Efax.C60_cmv_as_multivariate_violated",
    "Efax.C60_von_mises_formula",
    "Efax.C60_von_mises_pdf",
    "Efax.C60_von_mises_fisher_formula",
    "Efax.C60_von_mises_fisher_new",
    "Efax.C60_von_mises_fisher_pdf",
    "Efax.C60_order",
    "Efax.C60_rvs",
    "Efax.C60_pdf",
    "Efax.C60_pdf_single",
    "Efax.C60_entropy",
    "Efax.C60_pdf_violated",
    "Efax.C60_mvn_rvs"
   ],
   "note": "Every batch shape and size. Two points of the property are violated: pdf of a non-scalar batch raises ValueError for several observations per distribution, i.e. for what rvs(size) returned (C60_pdf_violated), and rvs of as_multivariate_normal of a non-empty batch always raises (C60_complex_as_multivariate_violated, C60_cmv_as_multivariate_violated). The rest is proved: C60_order, C60_rvs, C60_pdf, C60_entropy for any array of distributions, and for each class."
  },
  {
   "property": "C61",
   "status": "proved",
   "theorems": [
    "Efax.C61_pdf",
    "Efax.C61_pdf_keys",
    "Efax.C61_rvs",
    "Efax.C61_entropy",
    "Efax.C61_geometric"
   ],
   "note": "Any number of parts with any methods; the arrays returned by the parts have one shape."
  },
  {
   "property": "C62",
   "status": "proved",
   "theorems": [
    "Efax.C62_bernoulli_exp",
    "Efax.C62_bernoulli",
    "Efax.C62_beta",
    "Efax.C62_chi_square",
    "Efax.C62_dirichlet",
    "Efax.C62_exponential",
    "Efax.C62_exponential_exp",
    "Efax.C62_gamma",
    "Efax.C62_geometric_exp",
    "Efax.C62_geometric",
    "Efax.C62_mv_normal_var",
    "Efax.C62_mv_diagonal_var",
    "Efax.C62_mv_fixed_exp",
    "Efax.C62_mv_isotropic_exp",
    "Efax.C62_mv_unit",
    "Efax.C62_normal_var",
    "Efax.C62_normal_exp",
    "Efax.C62_unit_normal",
    "Efax.C62_poisson_exp",
    "Efax.C62_rayleigh",
    "Efax.C62_rayleigh_exp",
    "Efax.C62_weibull_exp",
    "Efax.C62_mv_normal_exp",
    "Efax.C62_mv_diagonal_exp",
    "Efax.C62_mv_diagonal",
    "Efax.C62_mv_fixed",
    "Efax.C62_mv_isotropic",
    "Efax.C62_normal",
    "Efax.C62_gamma_var",
    "Efax.C62_poisson",
    "Efax.C62_weibull",
    "Efax.C62_multinomial",
    "Efax.C62_negative_binomial_exp",
    "Efax.C62_negative_binomial",
    "Efax.C62_complex_unit_exp",
    "Efax.C62_complex_unit",
    "Efax.C62_cmv_unit_exp",
    "Efax.C62_cmv_unit",
    "Efax.C62_complex_normal_exp",
    "Efax.C62_complex_normal",
    "Efax.C62_cmv_circular_exp",
    "Efax.C62_cmv_circular",
    "Efax.C62_multinomial_exp",
    "Efax.C62_mv_unit_exp",
    "Efax.C62_unit_normal_exp",
    "Efax.C62_beta_exp",
    "Efax.C62_dirichlet_exp",
    "Efax.C62_chi_square_exp",
    "Efax.C62_gamma_exp",
    "Efax.C62_every",
    "Efax.C62_others",
    "Efax.C62_joint"
   ],
   "note": "Every samplable class (C62_every), with the draw of one entry written out for each class; the random primitives are arbitrary functions of the key, the shape, the index and the parameters at the index. The parameters of BetaEP, DirichletEP and GammaEP, which search for the natural parameters first, must lie inside their supports. Sample shapes are those to which the parameters broadcast, as in the code. The laws of one entry are C46."
  },
  {
   "property": "C63",
   "status": "proved",
   "theorems": [
    "Efax.C63_bernoulli_exp",
    "Efax.C63_bernoulli",
    "Efax.C63_poisson_exp",
    "Efax.C63_poisson",
    "Efax.C63_geometric_exp",
    "Efax.C63_multinomial",
    "Efax.C63_negative_binomial_exp",
    "Efax.C63_negative_binomial",
    "Efax.C63_beta",
    "Efax.C63_chi_square",
    "Efax.C63_exponential",
    "Efax.C63_exponential_exp",
    "Efax.C63_gamma",
    "Efax.C63_gamma_var",
    "Efax.C63_rayleigh",
    "Efax.C63_rayleigh_exp",
    "Efax.C63_weibull_exp",
    "Efax.C63_weibull",
    "Efax.C63_normal_var",
    "Efax.C63_normal_exp",
    "Efax.C63_normal",
    "Efax.C63_unit_normal",
    "Efax.C63_complex_unit_exp",
    "Efax.C63_dirichlet",
    "Efax.C63_mv_normal_var",
    "Efax.C63_mv_normal_exp",
    "Efax.C63_mv_diagonal_var",
    "Efax.C63_mv_diagonal_exp",
    "Efax.C63_mv_diagonal",
    "Efax.C63_mv_fixed_exp",
    "Efax.C63_mv_fixed",
    "Efax.C63_mv_isotropic_exp",
    "Efax.C63_mv_isotropic",
    "Efax.C63_mv_unit",
    "Efax.C63_cmv_unit_exp",
    "Efax.C63_complex_normal_exp",
    "Efax.C63_complex_normal",
    "Efax.C63_cmv_circular_exp",
    "Efax.C63_cmv_circular",
    "Efax.C63_geometric",
    "Efax.C63_complex_unit",
    "Efax.C63_cmv_unit",
    "Efax.C63_multinomial_exp",
    "Efax.C63_mv_unit_exp",
    "Efax.C63_unit_normal_exp",
    "Efax.C63_beta_exp",
    "Efax.C63_dirichlet_exp",
    "Efax.C63_chi_square_exp",
    "Efax.C63_gamma_exp",
    "Efax.C63_joint"
   ],
   "note": "Every samplable class, and joint distributions (C63_joint: ReadsBatch is supplied for each class by the theorems reads_*). The laws are the densities of the classes, except for the classes whose samplers are wrong (geometric, multinomial with d+1 parameters, complex unit normals: C47-C49), for which the theorem gives the law that they do sample. The statistical model of jax.random is Spec.IdealRandom; idealRandom_exists shows that it is satisfiable. BetaEP, DirichletEP, ChiSquareEP and GammaEP sample the law at the natural parameters that their search returns."
  },
  {
   "property": "C64",
   "status": "proved",
   "theorems": [
    "Efax.C64_arity",
    "Efax.C64_bernoulli",
    "Efax.C64_poisson",
    "Efax.C64_exponential",
    "Efax.C64_multinomial",
    "Efax.C64_unit_normal",
    "Efax.C64_mv_unit",
    "Efax.C64_mv_unit_general",
    "Efax.C64_mv_fixed",
    "Efax.C64_mv_fixed_general",
    "Efax.C64_observation",
    "Efax.C64_multinomial_general_raises",
    "Efax.C64_multinomial_general_one",
    "Efax.C64_mv_unit_number",
    "Efax.C64_mv_unit_number_flatten"
   ],
   "note": "All seven classes with conjugate priors and the two multivariate normal classes with generalized priors; C38 and C39 state what the priors of one distribution are. MultinomialEP.generalized_conjugate_prior_distribution violates the property for every batch: with the documented shape of n it raises for two or more parameters (C64_multinomial_general_raises) and returns distributions with one coordinate too many for one parameter (C64_multinomial_general_one). With one number in place of one for each coordinate, the generalized prior of MultivariateUnitNormalEP has a precision without an axis, with which log_normalizer and to_exp work (C64_mv_unit_number) but flattening raises (C64_mv_unit_number_flatten)."
  },
  {
   "property": "C65",
   "status": "proved",
   "theorems": [
    "Efax.C65_shift",
    "Efax.C65_exponents",
    "Efax.C65_scaled"
   ],
   "note": "Real arithmetic; the bounds are those that keep the floating-point evaluation from overflowing."
  },
  {
   "property": "C66",
   "status": "proved",
   "theorems": [
    "Efax.C66_vector_types",
    "Efax.C66_bernoulli",
    "Efax.C66_poisson",
    "Efax.C66_geometric",
    "Efax.C66_logarithmic",
    "Efax.C66_negative_binomial",
    "Efax.C66_multinomial",
    "Efax.C66_exponential",
    "Efax.C66_chi_square",
    "Efax.C66_chi",
    "Efax.C66_rayleigh",
    "Efax.C66_gamma",
    "Efax.C66_weibull",
    "Efax.C66_normal",
    "Efax.C66_unit_normal",
    "Efax.C66_dirichlet",
    "Efax.C66_beta",
    "Efax.C66_gen_dirichlet",
    "Efax.C66_von_mises_fisher",
    "Efax.C66_mv_unit",
    "Efax.C66_mv_fixed",
    "Efax.C66_mv_diagonal",
    "Efax.C66_mv_isotropic",
    "Efax.C66_complex_unit",
    "Efax.C66_complex_normal",
    "Efax.C66_cmv_unit",
    "Efax.C66_joint",
    "Efax.C66_steady_bernoulli",
    "Efax.C66_steady_poisson",
    "Efax.C66_steady_geometric",
    "Efax.C66_steady_negative_binomial",
    "Efax.C66_steady_multinomial",
    "Efax.C66_steady_exponential",
    "Efax.C66_steady_chi_square",
    "Efax.C66_steady_chi",
    "Efax.C66_steady_rayleigh",
    "Efax.C66_steady_gamma",
    "Efax.C66_steady_weibull",
    "Efax.C66_steady_normal",
    "Efax.C66_steady_unit_normal",
    "Efax.C66_steady_dirichlet",
    "Efax.C66_steady_beta",
    "Efax.C66_steady_gen_dirichlet",
    "Efax.C66_steady_von_mises_fisher",
    "Efax.C66_steady_mv_unit",
    "Efax.C66_steady_mv_fixed",
    "Efax.C66_steady_mv_diagonal",
    "Efax.C66_steady_mv_isotropic",
    "Efax.C66_steady_complex_unit",
    "Efax.C66_steady_complex_normal",
    "Efax.C66_steady_cmv_unit",
    "Efax.C66_normal_poisson",
    "Efax.C66_mv_normal",
    "Efax.C66_cmv_circular",
    "Efax.C66_logarithmic_floor",
    "Efax.C66_not_logarithmic",
    "Efax.C66_weibull_concentration",
    "Efax.C66_mv_fixed_variance"
   ],
   "note": "Every simple natural class; joint distributions of any classes and nesting for which small changes of the parameters do not make to_exp raise (Steady, supplied by C66_steady_* for the classes whose to_exp is total). The multivariate normal and the circularly symmetric complex normal are claimed for vectors and directions with symmetric (Hermitian) matrices. vjp is modelled by its definition: the cotangent of an entry is the derivative of the pairing of the vector with the result, with JAX's convention for complex numbers. Violated by the logarithmic family below the cut-off of to_exp, where the result is zero but the variance is not (C66_logarithmic_floor, C66_not_logarithmic); proved for it between the cut-offs. The fixed parameters of the result are not zero: C66_weibull_concentration and C66_mv_fixed_variance say what they are."
  },
  {
   "property": "C67",
   "status": "proved",
   "theorems": [
    "Efax.C67_log_pdf",
    "Efax.C67_pdf",
    "Efax.C67_each"
   ],
   "note": "All classes and joint distributions; the shape of the observations ends with the shape of the batch. Observations with fewer axes than the batch are not claimed: NegativeBinomialNP and WeibullNP raise for them, because they broadcast the fixed parameter to the shape of the observations."
  },
  {
   "property": "C68",
   "status": "proved",
   "theorems": [
    "Efax.C68_pdf",
    "Efax.C68_to_exp",
    "Efax.C68_kl",
    "Efax.C68_kl_expectation",
    "Efax.C68_entropy",
    "Efax.C68_found",
    "Efax.C68_to_nat",
    "Efax.C68_gradient",
    "Efax.C68_fisher",
    "Efax.C68_every"
   ],
   "note": "Every simple class and every nesting (LibrarySetting: the table of reference measures and natural domains, and products of them). f is whatever pdf computes (PdfIs), s whatever parameter_dot_product with the sufficient statistics computes (StatisticIs). to_exp() of the logarithmic family is claimed between its cut-offs. Entropies need expected_carrier_measure, and for chi and chi-square that to_nat() finds the parameters (Found: always for classes that do not search, C68_found; for the others when the search ends at valid parameters with the right expectations)."
  },
  {
   "property": "C69",
   "status": "proved",
   "theorems": [
    "Efax.C69_estimate",
    "Efax.C69_sufficient",
    "Efax.C69_maximum_likelihood",
    "Efax.C69_unique",
    "Efax.C69_simple_estimator",
    "Efax.C69_new_axes_necessary",
    "Efax.C69_minimal"
   ],
   "note": "Every simple class and every nesting; observations with any number of additional axes of positive length. Parameters are compared through parameter_dot_product with all directions. create_simple_estimator computes the same for classes without fixed parameters (C69_simple_estimator). The new axes are necessary: without them the recipe raises for MultivariateFixedVarianceNormalEP without batch axes (C69_new_axes_necessary). The existence of a maximum is not claimed (e.g. for observations on the boundary there is none)."
  },
  {
   "property": "C70",
   "status": "proved",
   "theorems": [
    "Efax.C70_bisection",
    "Efax.C70_monotone",
    "Efax.C70_start",
    "Efax.C70_choice",
    "Efax.C70_gamma",
    "Efax.C70_chi_square",
    "Efax.C70_logarithmic",
    "Efax.C70_von_mises_fisher",
    "Efax.C70_von_mises_fisher_batch_counterexample"
   ],
   "note": "optimistix is trusted for one thing: its bisection comes as near as tol to a point where the function changes its sign, if this point is at most reach from the middle of the given interval (FindsCrossing; a reference bisection satisfies it, C70_bisection). Numbers are real numbers. The von Mises-Fisher distribution in one dimension is not claimed. VonMisesFisherEP.search_gradient is only right for single distributions, as to_nat uses it: for a batch its result has the wrong shape (C70_von_mises_fisher_batch_counterexample)."
  },
  {
   "property": "C71",
   "status": "proved",
   "theorems": [
    "Efax.C71_cross_entropy",
    "Efax.C71_kl_expectation",
    "Efax.C71_kl",
    "Efax.C71_kl_observed",
    "Efax.C71_entropy",
    "Efax.C71_continuous"
   ],
   "note": "Every simple class and every nesting. Derivatives are mathematical derivatives; stop_gradient is modelled by holding the result of to_nat() fixed. Entropies need expected_carrier_measure and that to_nat() finds the parameters along the curve (Found, always true for classes that do not search). Convergence is stated through all linear functionals of the (finite-dimensional) parameters."
  },
  {
   "property": "C72",
   "status": "proved",
   "theorems": [
    "Efax.C72_step",
    "Efax.C72_terminates",
    "Efax.C72_unique"
   ],
   "note": "Numbers are real numbers (the step and the bounds are those of the code; the float32 arithmetic in which the loop runs is not modelled). grad is modelled by the mathematical derivatives with respect to the entries of the parameters, while_loop by an inductive relation with the number of steps."
  },
  {
   "property": "C73",
   "status": "proved",
   "theorems": [
    "Efax.C73_bernoulli_exp",
    "Efax.C73_bernoulli",
    "Efax.C73_poisson_exp",
    "Efax.C73_poisson",
    "Efax.C73_negative_binomial_exp",
    "Efax.C73_negative_binomial",
    "Efax.C73_beta",
    "Efax.C73_chi_square",
    "Efax.C73_exponential",
    "Efax.C73_exponential_exp",
    "Efax.C73_gamma",
    "Efax.C73_gamma_var",
    "Efax.C73_rayleigh",
    "Efax.C73_rayleigh_exp",
    "Efax.C73_weibull_exp",
    "Efax.C73_weibull",
    "Efax.C73_normal_var",
    "Efax.C73_normal_exp",
    "Efax.C73_normal",
    "Efax.C73_unit_normal",
    "Efax.C73_dirichlet",
    "Efax.C73_mv_normal_var",
    "Efax.C73_mv_normal_exp",
    "Efax.C73_mv_diagonal_var",
    "Efax.C73_mv_diagonal_exp",
    "Efax.C73_mv_diagonal",
    "Efax.C73_mv_fixed_exp",
    "Efax.C73_mv_fixed",
    "Efax.C73_mv_isotropic_exp",
    "Efax.C73_mv_isotropic",
    "Efax.C73_mv_unit",
    "Efax.C73_complex_normal_exp",
    "Efax.C73_complex_normal",
    "Efax.C73_cmv_circular_exp",
    "Efax.C73_cmv_circular",
    "Efax.C73_mv_unit_exp",
    "Efax.C73_unit_normal_exp",
    "Efax.C73_beta_exp",
    "Efax.C73_dirichlet_exp",
    "Efax.C73_chi_square_exp",
    "Efax.C73_gamma_exp",
    "Efax.C73_geometric_exp",
    "Efax.C73_complex_unit_exp",
    "Efax.C73_multinomial"
   ],
   "note": "From the law of the samples (C63) and the estimates as averages (C69): unbiasedness, variance = Fisher information / n and Chebyshev's bound, for the entry of every batch and every direction. Random numbers are ideal (independent seeds with exact laws), arithmetic is exact, and the clamping of samples to the support (test_sampling.py 45, 51) is left out. Families whose to_nat() searches assume that the search solved the equation. Geometric, complex unit normal and multinomial samplers are wrong (C47-C49): the theorems state what their estimates converge to."
  },
  {
   "property": "C74",
   "status": "proved",
   "theorems": [
    "Efax.C74_bernoulli_kl",
    "Efax.C74_bernoulli_entropy",
    "Efax.C74_poisson_kl",
    "Efax.C74_negative_binomial_kl",
    "Efax.C74_geometric_kl",
    "Efax.C74_geometric_entropy",
    "Efax.C74_logarithmic_kl",
    "Efax.C74_exponential_kl",
    "Efax.C74_exponential_entropy",
    "Efax.C74_gamma_kl",
    "Efax.C74_gamma_entropy",
    "Efax.C74_chi_square_kl",
    "Efax.C74_chi_square_entropy",
    "Efax.C74_chi_kl",
    "Efax.C74_chi_entropy",
    "Efax.C74_rayleigh_kl",
    "Efax.C74_rayleigh_entropy",
    "Efax.C74_weibull_kl",
    "Efax.C74_weibull_entropy",
    "Efax.C74_normal_kl",
    "Efax.C74_normal_entropy",
    "Efax.C74_unit_normal_kl",
    "Efax.C74_unit_normal_entropy",
    "Efax.C74_mv_normal_kl",
    "Efax.C74_mv_normal_entropy",
    "Efax.C74_mv_diagonal_kl",
    "Efax.C74_mv_diagonal_entropy",
    "Efax.C74_mv_isotropic_kl",
    "Efax.C74_mv_isotropic_entropy",
    "Efax.C74_mv_fixed_kl",
    "Efax.C74_mv_fixed_entropy",
    "Efax.C74_mv_unit_kl",
    "Efax.C74_mv_unit_entropy",
    "Efax.C74_complex_normal_kl",
    "Efax.C74_complex_normal_entropy",
    "Efax.C74_complex_unit_kl",
    "Efax.C74_complex_unit_entropy",
    "Efax.C74_cmv_unit_kl",
    "Efax.C74_cmv_unit_entropy",
    "Efax.C74_cmv_circular_kl",
    "Efax.C74_cmv_circular_entropy",
    "Efax.C74_multinomial_kl",
    "Efax.C74_multinomial_entropy",
    "Efax.C74_dirichlet_kl",
    "Efax.C74_dirichlet_entropy",
    "Efax.C74_beta_kl",
    "Efax.C74_beta_entropy",
    "Efax.C74_gen_dirichlet_kl",
    "Efax.C74_gen_dirichlet_entropy",
    "Efax.C74_von_mises_fisher_kl",
    "Efax.C74_von_mises_fisher_entropy"
   ],
   "note": "klN/klE and entropyN/entropyE of whole objects against independent formulas (Spec/ClosedForm.lean), from C51 and algebra for single distributions. Exact arithmetic. klE and entropyE convert expectation parameters back, which for the classes that search assumes that the search solved the equation (hypothesis Found; C68 and C70 say when); entropy() of chi and chi-square assumes it for natural parameters as well, since their expected carrier measure calls to_nat()."
  },
  {
   "property": "C75",
   "status": "proved",
   "theorems": [
    "Efax.C75_infos",
    "Efax.C75_selected",
    "Efax.C75_coverage",
    "Efax.C75_multinomial_untested",
    "Efax.C75_sampling_selected",
    "Efax.C75_prior_selected",
    "Efax.C75_estimation_selected",
    "Efax.C75_any_integral",
    "Efax.C75_pdf",
    "Efax.C75_entropy",
    "Efax.C75_expectation",
    "Efax.C75_nat_structure",
    "Efax.C75_exp_structure",
    "Efax.C75_structures",
    "Efax.C75_nested_violated",
    "Efax.C75_dirichlet_rows"
   ],
   "note": "Densities and entropies of the translated distributions against pdf/entropyN/entropyE of whole objects (simple and nested joint), by one lemma per description (agrees_*) and induction over the description. scipy.stats is modelled by its documented densities; its entropies by the sum or integral of -p log p (von Mises and von Mises-Fisher: by the formulas of SciPy). Exact arithmetic. Entropies, and translations of expectation parameters of the classes that search, assume that to_nat() finds the natural parameters (hypothesis Found; C68 and C70 say when). C75_nested_violated: the structures of nested joint descriptions have the names of the paths in reverse order (the test-suite has none). C75_multinomial_untested: no description covers the multinomial distribution."
  },
  {
   "property": "C76",
   "status": "proved",
   "theorems": [
    "Efax.C76_unflatten",
    "Efax.C76_unflatten_valid",
    "Efax.C76_von_mises_fisher_negation",
    "Efax.C76_multivariate_normal_negation",
    "Efax.C76_complex_circular_negation",
    "Efax.C76_random",
    "Efax.C76_test_parameters",
    "Efax.C76_test_expectation",
    "Efax.C76_nested_violated"
   ],
   "note": "Validity (Spec/Valid.lean) is membership in the natural domains of C68's settings, entry by entry, with valid fixed parameters. C76_unflatten is an equivalence with definiteness (Definite). Negations with witnesses: C76_von_mises_fisher_negation (zero vector), C76_multivariate_normal_negation and C76_complex_circular_negation (indefinite matrices), C76_nested_violated (no parameters can be generated for nested joint descriptions of the test-suite). C76_random assumes InRange, NeverZero and Generic of the random stream (ranges of the primitive generators, no zero complex number, no zero vector, no singular matrix), which hold with probability one. Exact arithmetic."
  },
  {
   "property": "C77",
   "status": "proved",
   "theorems": [
    "Efax.C77_fisher",
    "Efax.C77_flat",
    "Efax.C77_joint_blocks",
    "Efax.C77_joint_single",
    "Efax.C77_exact_near"
   ],
   "note": "FlatFisher is the specification of C42, FlatFisherIn the same with covariances only at the coordinates that move the parameters within the family (all coordinates without circularly symmetric complex normal parts: C77_flat), now for kinds and settings of any nesting. ExactNear is what C77_exact_near says: no restriction but for logarithmic parts, whose parameters must lie strictly between the limits of to_exp. C77_joint_blocks, C77_joint_single: block structure and Jeffreys priors, for all parts. The gradient of log_normalizer is that of the custom rule of the code; the derivative of to_exp is the mathematical one; exact arithmetic."
  },
  {
   "property": "C78",
   "status": "proved",
   "theorems": [
    "Efax.C78_parameters",
    "Efax.C78_simple",
    "Efax.C78_observations",
    "Efax.C78_same_paths",
    "Efax.C78_clamp",
    "Efax.C78_clamp_defined"
   ],
   "note": "Paths are specified by SubAt and LeafAt, the clamped observation by recursion over the nesting (Clamped, Spec/Clamped.lean). C78_clamp is an equivalence; C78_clamp_defined says when clamping succeeds for the classes of efax. Values of single arrays after clamping: C10, C11."
  },
  {
   "property": "C79",
   "status": "proved",
   "theorems": [
    "Efax.C79_bernoulli",
    "Efax.C79_poisson",
    "Efax.C79_geometric",
    "Efax.C79_logarithmic",
    "Efax.C79_negative_binomial",
    "Efax.C79_multinomial",
    "Efax.C79_exponential",
    "Efax.C79_chi_square",
    "Efax.C79_chi",
    "Efax.C79_rayleigh",
    "Efax.C79_gamma",
    "Efax.C79_weibull",
    "Efax.C79_normal",
    "Efax.C79_unit_normal",
    "Efax.C79_dirichlet",
    "Efax.C79_beta",
    "Efax.C79_gen_dirichlet",
    "Efax.C79_von_mises_fisher",
    "Efax.C79_mv_unit",
    "Efax.C79_mv_fixed",
    "Efax.C79_mv_diagonal",
    "Efax.C79_mv_isotropic",
    "Efax.C79_mv_normal",
    "Efax.C79_complex_unit",
    "Efax.C79_complex_normal",
    "Efax.C79_cmv_unit",
    "Efax.C79_test_a",
    "Efax.C79_test_b"
   ],
   "note": "FisherIs (Spec/FisherForm.lean) names the direction of every flat coordinate by what a raw flattener recovers from its unit vector, and the entries by independent bilinear forms. C79_test_a and C79_test_b are the values asserted by the tests. Exact arithmetic. That these forms are covariances under the densities is C42."
  },
  {
   "property": "C80",
   "status": "proved",
   "theorems": [
    "Efax.C80_conversion",
    "Efax.C80_conversion_closed",
    "Efax.C80_convex",
    "Efax.C80_convex_exact",
    "Efax.C80_raises",
    "Efax.C80_strictly_inside",
    "Efax.C80_flatten",
    "Efax.C80_flatten_exp",
    "Efax.C80_shapes",
    "Efax.C80_shapes_violated",
    "Efax.C80_jvp",
    "Efax.C80_jvp_closed"
   ],
   "note": "The bodies of the tests are programs of the model (Model/Tests/Bodies.lean); a test passes if its program returns. Conditions on the stream: InRange, NeverZero, Generic, Strict (hold with probability one) and Cooperative/Between (the searches find their solution and logarithmic parameters are between the cut-offs); for families that do not search the latter are proved (C80_conversion_closed, C80_jvp_closed, C80_convex_exact). C80_shapes_violated is the negation for joint descriptions with a part without entropy, with the joint distribution of a normal and a Poisson distribution as witness. Tolerances of the comparisons are replaced by equality, assertions about dtypes by the types of the model."
  },
  {
   "property": "C81",
   "status": "proved",
   "theorems": [
    "Efax.C81_normal_kl",
    "Efax.C81_mvn_kl",
    "Efax.C81_gamma_kl",
    "Efax.C81_observation_shape",
    "Efax.C81_pdf",
    "Efax.C81_nat_entropy",
    "Efax.C81_exp_entropy",
    "Efax.C81_suite"
   ],
   "note": "Model/Tests/Bodies2.lean has the bodies of the tests as programs; an oracle for scipy.stats (Spec/Oracle.lean) gives textbook densities and entropies, and the draws are arbitrary values in the range of the distribution. C81_suite covers the list of descriptions of the suite. Conditions on the stream as for C80; test_gamma_kl and the entropy tests of families that search need searches that find their solution (satisfiable: C82, example in Props/TestKl.lean). Tolerances are replaced by equality."
  },
  {
   "property": "C82",
   "status": "proved",
   "theorems": [
    "Efax.C82_gamma_small",
    "Efax.C82_beta_large",
    "Efax.C82_dirichlet_large",
    "Efax.C82_gen_dirichlet_large",
    "Efax.C82_not_gamma",
    "Efax.C82_not_beta",
    "Efax.C82_part_fails",
    "Efax.C82_methods_fail",
    "Efax.C82_joint_gamma_small",
    "Efax.C82_found",
    "Efax.C82_only",
    "Efax.C82_cooperative",
    "Efax.C82_conversion",
    "Efax.C82_round_trip",
    "Efax.C82_not_gen_dirichlet"
   ],
   "note": "exactMinimizer chooses a root of the search equation if there is one; C82_found and C82_only characterise the reachable parameters (ReachableVals, Spec/Reach.lean) for all objects, C82_round_trip states the consequence for the code, C82_cooperative and C82_conversion for the tests. C82_not_gen_dirichlet is the negation for a negative gamma (the arcsine law as witness), for all minimizers."
  },
  {
   "property": "C83",
   "status": "proved",
   "theorems": [
    "Efax.C83_cotangent",
    "Efax.C83_gradient",
    "Efax.C83_normal_entry",
    "Efax.C83_primals",
    "Efax.C83_vjp",
    "Efax.C83_closed"
   ],
   "note": "Model/Tests/Bodies3.lean models vjp and grad: the cotangent has one entry per entry of each stored array, from the mathematical derivative of the nudged object (originalVjp), or from the transposed custom rule (optimizedVjp). C83_cotangent covers all library objects, batch shapes and cotangents, C83_gradient the cotangent of ones; C83_primals, C83_vjp and C83_closed the bodies of the tests; C83_normal_entry spells out one entry of the matrix of a multivariate normal. The condition Between (expectation parameters are computed without division by zero) is void for families that do not search. Tolerances are replaced by equality."
  },
  {
   "property": "C84",
   "status": "proved",
   "theorems": [
    "Efax.C84_bernoulli",
    "Efax.C84_poisson",
    "Efax.C84_exponential",
    "Efax.C84_unit_normal",
    "Efax.C84_mv_unit",
    "Efax.C84_mv_fixed",
    "Efax.C84_mv_unit_general",
    "Efax.C84_mv_fixed_general",
    "Efax.C84_multinomial",
    "Efax.C84_detects",
    "Efax.C84_selected",
    "Efax.C84_selected_general",
    "Efax.C84_test",
    "Efax.C84_test_general",
    "Efax.C84_suite",
    "Efax.C84_joint_fails"
   ],
   "note": "Model/Tests/Bodies4.lean has the bodies of both tests; grad with vmap is the mathematical derivative of the density at a batch index in each entry of the observation at this index, and is required to exist. C84_<class> are the statements for arrays, C84_selected* combine them for the classes that the fixtures select, C84_test* and C84_suite run the tests, C84_detects characterises passing for an arbitrary library. C84_joint_fails is the negation for joint distributions (hypothetical descriptions: the suite has none that is selected). The exponential class passes although its prior is not conjugate (C38): the test only looks at the mode."
  },
  {
   "property": "C85",
   "status": "proved",
   "theorems": [
    "Efax.C85_support",
    "Efax.C85_declared",
    "Efax.C85_generate_random",
    "Efax.C85_test_parameters",
    "Efax.C85_failures"
   ],
   "note": "Spec/RandomReach.lean describes the values; Lemmas/Reach*.lean construct the stream that leads to a given value (matrices: a square root of the matrix, rotated so that no random complex entry is zero, Lemmas/ReachMatrix.lean). C85_support is an equivalence. C85_failures is the negation for integers: IntegralRing.generate multiplies the lower bound by ten together with the exponential draw."
  },
  {
   "property": "C86",
   "status": "proved",
   "theorems": [
    "Efax.C86_blind",
    "Efax.C86_rounds",
    "Efax.C86_round_pdf",
    "Efax.C86_detects",
    "Efax.C86_shapes",
    "Efax.C86_kl",
    "Efax.C86_loops",
    "Efax.C86_detects_two"
   ],
   "note": "Library Cls is an arbitrary record of methods. C86_rounds, C86_round_pdf, C86_shapes, C86_kl and C86_loops characterise passing, C86_detects and C86_detects_two combine this with C85 (Reachable); C86_blind is a defect that test_conversion overlooks. For the tests of priors see C84_detects."
  },
  {
   "property": "C87",
   "status": "proved",
   "theorems": [
    "Efax.C87_shapes",
    "Efax.C87_close",
    "Efax.C87_test",
    "Efax.C87_same_key",
    "Efax.C87_equal_parts",
    "Efax.C87_twins",
    "Efax.C87_tolerance"
   ],
   "note": "Model/Tests/Bodies5.lean is the test. C87_test has everything together; C87_shapes is verify_sample_shape, C87_close reads treeAllclose of the estimate as a statement about means (CloseMeans), C87_same_key, C87_equal_parts and C87_twins are about the key. Natural parameters need Between (only logarithmic distributions), expectation parameters Cooperative. How likely the means are close is C73."
  },
  {
   "property": "C88",
   "status": "proved",
   "theorems": [
    "Efax.C88_close",
    "Efax.C88_test",
    "Efax.C88_negative_binomial",
    "Efax.C88_weibull"
   ],
   "note": "Model/Tests/Bodies6.lean is the test; Spec/TestEstimation.lean says what it decides. C88_test has everything together, C88_close reads treeAllclose of the averaged statistics as a statement about means (NearMeans), C88_negative_binomial and C88_weibull are the shapes of the computed parameters. Lemmas/TestEstimation.lean shows for all families that statistics of a batch of observations can be computed with fixed parameters that have no axes."
  },
  {
   "property": "C89",
   "status": "proved",
   "theorems": [
    "Efax.C89_build_univariate",
    "Efax.C89_build_multivariate",
    "Efax.C89_univariate_rvs",
    "Efax.C89_multivariate_rvs",
    "Efax.C89_multivariate_rejects",
    "Efax.C89_multivariate_violated",
    "Efax.C89_one_component",
    "Efax.C89_consistency",
    "Efax.C89_rvs_shape",
    "Efax.C89_shaped_iff",
    "Efax.C89_shaped",
    "Efax.C89_shaped_normal",
    "Efax.C89_shaped_dirichlet",
    "Efax.C89_shaped_suite",
    "Efax.C89_squeezed"
   ],
   "note": "Model/Tests/Bodies7.lean is the two test files; Spec/TestComplex.lean has the sample moments and closeness. C89_build_univariate and C89_build_multivariate are the builders, C89_univariate_rvs and C89_multivariate_rvs what the two tests decide, C89_multivariate_rejects and C89_multivariate_violated the comparison of a real with a complex variance, C89_consistency (with C89_one_component) the comparison of the two implementations, C89_shaped_iff what test_shaped decides, C89_shaped_suite its five cases and C89_squeezed what it detects."
  },
  {
   "property": "C90",
   "status": "proved",
   "theorems": [
    "Efax.C90_entropy",
    "Efax.C90_flat",
    "Efax.C90_test"
   ],
   "note": "Model/Tests/Bodies8.lean is the test of the gradients of entropies of natural parameters; Spec/EntropyGradient.lean says which distributions compute the expected carrier measure without a search. C90_entropy is the derivative along lines of natural parameters, C90_flat the derivative of the sum of the entropies in flat coordinates (without circularly symmetric complex normal distributions, whose flat array leaves the family), and C90_test what the test accepts and rejects as the step of the central difference tends to zero."
  },
  {
   "property": "C91",
   "status": "proved",
   "theorems": [
    "Efax.C91_carrier",
    "Efax.C91_von_mises_fisher",
    "Efax.C91_shape",
    "Efax.C91_violated"
   ],
   "note": "C91_carrier and C91_von_mises_fisher are the two cases, for every batch and every (nested) joint distribution by induction on the kinds of C51; C91_shape compares the shape with that of log_pdf; C91_violated is the witness for the von Mises-Fisher distribution (DESIGN.md section 4, item 37)."
  },
  {
   "property": "C92",
   "status": "proved",
   "theorems": [
    "Efax.C92_decides",
    "Efax.C92_exponential_natural",
    "Efax.C92_exponential_expectation",
    "Efax.C92_unit_normal_natural",
    "Efax.C92_unit_normal_expectation",
    "Efax.C92_rayleigh_natural",
    "Efax.C92_rayleigh_expectation",
    "Efax.C92_mv_unit_natural",
    "Efax.C92_mv_unit_expectation",
    "Efax.C92_normal_expectation",
    "Efax.C92_normal_natural",
    "Efax.C92_detects",
    "Efax.C92_normal_zero"
   ],
   "note": "C92_decides is the general statement for any class whose flat sample is a function of the flat parameters (SampledBy), C92_detects the failure; the other theorems establish SampledBy from the flattener (C01) and the samplers (C62) and compute the derivatives. For normal distributions the draws excluded are those on two hyperplanes (ae_linear), and C92_normal_zero is one of them. The Rayleigh theorems assume that jax.random.rayleigh is the scale times a draw of scale one."
  },
  {
   "property": "C93",
   "status": "proved",
   "theorems": [
    "Efax.C93_stop",
    "Efax.C93_test",
    "Efax.C93_closed",
    "Efax.C93_through",
    "Efax.C93_gamma",
    "Efax.C93_gamma_decides"
   ],
   "note": "C93_stop is the mathematical reason: the derivative of the Kullback-Leibler divergence from a moving distribution to the start is zero at the start (envelope argument), for any curve of recovered distributions. C93_test is what the test decides for any computed derivative, C93_closed discharges the hypothesis from C31 and openness of the mean domains, C93_through and C93_gamma are the test of the gamma distribution, where the hypothesis follows from C32_gamma_domain. C93_gamma_decides is what that test decides about any root finder; the example is a root finder that it detects. In test_gamma_vp_entropy_gradient, the gradient through to_nat() is the mathematical derivative."
  },
  {
   "property": "C94",
   "status": "proved",
   "theorems": [
    "Efax.C94_finite",
    "Efax.C94_every",
    "Efax.C94_log_pdf",
    "Efax.C94_kl",
    "Efax.C94_kl_expectation",
    "Efax.C94_entropy",
    "Efax.C94_invalid",
    "Efax.C94_unguarded",
    "Efax.C94_search",
    "Efax.C94_von_mises_zero",
    "Efax.C94_surprisal",
    "Efax.C94_variance"
   ],
   "note": "The family models use total functions (log 0 = 0, x / 0 = 0). C94_finite shows that a second, checked version of the formulas, written operation by operation from the code, has a value wherever the parameters are valid, and that this value is the one of the family model, so that no theorem about valid parameters depends on the conventions for total functions. C94_log_pdf, C94_kl, C94_kl_expectation and C94_entropy are the generic methods. C94_invalid is the converse for the guarded families, C94_unguarded gives witnesses for the two that are not guarded, C94_von_mises_zero the violation at zero. Exact arithmetic: overflow is not modelled."
  },
  {
   "property": "C95",
   "status": "proved",
   "theorems": [
    "Efax.C95_natural",
    "Efax.C95_expectation",
    "Efax.C95_log_normalizer",
    "Efax.C95_to_exp",
    "Efax.C95_to_nat",
    "Efax.C95_log_pdf",
    "Efax.C95_kl_natural",
    "Efax.C95_kl_expectation",
    "Efax.C95_cross_entropy",
    "Efax.C95_entropy_natural",
    "Efax.C95_entropy_expectation",
    "Efax.C95_slice",
    "Efax.C95_integer",
    "Efax.C95_array",
    "Efax.C95_mask",
    "Efax.C95_getitem",
    "Efax.C95_newaxis",
    "Efax.C95_ellipsis_negation",
    "Efax.C95_too_long_negation"
   ],
   "note": "C95_natural and C95_expectation say which entries d[key] has, the other theorems that the methods commute with subscripts; C95_slice, C95_integer, C95_array and C95_mask that the keys select what they should; C95_getitem and C95_newaxis that the models of subscripts used by earlier properties are special cases. C95_ellipsis_negation and C95_too_long_negation are the violations. Indices out of range are errors in the model (JAX clamps them)."
  },
  {
   "property": "C96",
   "status": "proved",
   "theorems": [
    "Efax.C96_pythagoras",
    "Efax.C96_maximum_entropy",
    "Efax.C96_three_points",
    "Efax.C96_monotone",
    "Efax.C96_conjugate"
   ],
   "note": "Stated for the objects of the library (dictionaries of arrays, joint distributions) with their methods kl_divergence, entropy, to_exp, expected_carrier_measure, carrier_measure and sufficient_statistics; g is any density. C96_maximum_entropy and C96_conjugate are about the families with expected_carrier_measure."
  },
  {
   "property": "C97",
   "status": "proved",
   "theorems": [
    "Efax.C97_dot_product",
    "Efax.C97_cross_entropy",
    "Efax.C97_kl_with",
    "Efax.C97_kl_expectation",
    "Efax.C97_kl_natural",
    "Efax.C97_incompatible",
    "Efax.C97_log_pdf",
    "Efax.C97_log_pdf_observations",
    "Efax.C97_negative_binomial_negation",
    "Efax.C97_weibull_negation",
    "Efax.C97_joint_parts",
    "Efax.C97_log_pdf_incompatible",
    "Efax.C97_kinds",
    "Efax.C97_log_pdf_strict_negation"
   ],
   "note": "Spec/Broadcast.lean states NumPy's rule on its own. C97_log_pdf is about all kinds without negative binomial and Weibull distributions, C97_log_pdf_observations about all kinds if the observations have the shape of the result; C97_negative_binomial_negation and C97_weibull_negation show that for these two families nothing else works, C97_log_pdf_strict_negation that nothing else works for joint distributions with one of them as a part, at any depth; C97_kinds shows that every kind is one or the other. C97_incompatible and C97_log_pdf_incompatible are about shapes that do not broadcast. The fixed parameters of two distributions that meet must agree, as everywhere."
  },
  {
   "property": "C98",
   "status": "proved",
   "theorems": [
    "Efax.C98_unique",
    "Efax.C98_estimate",
    "Efax.C98_bernoulli_exp",
    "Efax.C98_bernoulli",
    "Efax.C98_poisson_exp",
    "Efax.C98_poisson",
    "Efax.C98_negative_binomial_exp",
    "Efax.C98_negative_binomial",
    "Efax.C98_beta",
    "Efax.C98_chi_square",
    "Efax.C98_exponential",
    "Efax.C98_exponential_exp",
    "Efax.C98_gamma",
    "Efax.C98_gamma_var",
    "Efax.C98_rayleigh",
    "Efax.C98_rayleigh_exp",
    "Efax.C98_weibull_exp",
    "Efax.C98_weibull",
    "Efax.C98_normal_var",
    "Efax.C98_normal_exp",
    "Efax.C98_normal",
    "Efax.C98_unit_normal",
    "Efax.C98_dirichlet",
    "Efax.C98_mv_normal_var",
    "Efax.C98_mv_normal_exp",
    "Efax.C98_mv_diagonal_var",
    "Efax.C98_mv_diagonal_exp",
    "Efax.C98_mv_diagonal",
    "Efax.C98_mv_fixed_exp",
    "Efax.C98_mv_fixed",
    "Efax.C98_mv_isotropic_exp",
    "Efax.C98_mv_isotropic",
    "Efax.C98_mv_unit",
    "Efax.C98_complex_normal_exp",
    "Efax.C98_complex_normal",
    "Efax.C98_cmv_circular_exp",
    "Efax.C98_cmv_circular",
    "Efax.C98_mv_unit_exp",
    "Efax.C98_unit_normal_exp",
    "Efax.C98_beta_exp",
    "Efax.C98_dirichlet_exp",
    "Efax.C98_chi_square_exp",
    "Efax.C98_gamma_exp"
   ],
   "note": "C98_estimate holds for all kinds, including joint distributions; the instances for samplers are those of C73 (the Dirichlet, beta, gamma and chi-square expectation parametrizations where the root finder succeeds). The random numbers are ideal (IdealRandom). The open mapping is the inverse function theorem for the gradient of the log-normalizer, in Lemmas/MeanSpace.lean."
  },
  {
   "property": "C99",
   "status": "proved",
   "theorems": [
    "Efax.C99_cross_entropy",
    "Efax.C99_cross_entropy_comments",
    "Efax.C99_maximum_likelihood",
    "Efax.C99_example"
   ],
   "note": "Real numbers in place of float32, ideal random numbers. The third example, examples/optimization.py, is C72. The hypothesis on the search says that it inverts the conversion where the conversion's image is in reach; exactMinimizer in Props/Reach.lean satisfies it."
  },
  {
   "property": "C100",
   "status": "proved",
   "theorems": [
    "Efax.C100_efficient",
    "Efax.C100_unique"
   ],
   "note": "Independent observations are described by the product of the densities computed by pdf() with respect to the product of the reference measures. The bound needs unbiasedness only on a neighbourhood of the parameters along the direction, and no regularity of the estimate besides a variance (Chapman-Robbins and a limit)."
  },
  {
   "property": "C101",
   "status": "proved",
   "theorems": [
    "Efax.C101_rate"
   ],
   "note": "Independent observations are described by the product of the densities computed by pdf(). The lower bound needs different parameters q' and q; the bounds on the parameters of the logarithmic distribution are those of C68."
  },
  {
   "property": "C102",
   "status": "proved",
   "theorems": [
    "Efax.C102_normal",
    "Efax.C102_half"
   ],
   "note": "Independent observations are described by the product of the densities computed by pdf(). One component of the estimate at a time; every direction is covered, so that by the theorem of Cramer and Wold this is the joint statement. The bounds on the parameters of the logarithmic distribution are those of C68."
  },
  {
   "property": "C103",
   "status": "proved",
   "theorems": [
    "Efax.C103_combine",
    "Efax.C103_comm",
    "Efax.C103_undo",
    "Efax.C103_evidence",
    "Efax.C103_mixture",
    "Efax.C103_pool",
    "Efax.C103_scale",
    "Efax.C103_addable",
    "Efax.C103_mixable",
    "Efax.C103_not_addable"
   ],
   "note": "addScaled, the function passed to parameter_map, is a definition of the specification: the library has no method for this. That the combination is inside the domain is a hypothesis of the laws; C103_addable and C103_mixable give it for sums and mixtures, C103_not_addable shows that sums need not be distributions."
  },
  {
   "property": "C104",
   "status": "proved",
   "theorems": [
    "Efax.C104_combine",
    "Efax.C104_mixture",
    "Efax.C104_pool"
   ],
   "note": "addScaled is the function of C103. That there is an r with r.to_exp() equal to the average is a hypothesis of C104_pool; C105 is about that."
  },
  {
   "property": "C105",
   "status": "proved",
   "theorems": [
    "Efax.C105_pooled",
    "Efax.C105_converted",
    "Efax.C105_opposite",
    "Efax.C105_convex",
    "Efax.C105_line",
    "Efax.C105_sphere"
   ],
   "note": "C105_converted is about closed forms of to_nat (setting.closed); C105_convex is about all weights between 0 and 1 and all classes but von Mises-Fisher; C105_sphere is about von Mises-Fisher distributions in directions that are not opposite, and C105_line about all simple and joint distributions if the natural parameters on the line from a to b are valid; C105_pooled is about all classes and small weights, and does not say that to_nat finds the distribution (C70 and C82 do for the searches)."
  }
 ]
}
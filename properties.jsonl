{"id": "C01", "title": "Flatten then unflatten restores the distribution (plane-mapped mode)", "statement": "For a distribution whose variable parameters all lie strictly inside their declared supports (and whose complex or disk-bounded values are non-zero), flattening it with map_to_plane=True and unflattening the resulting array with the returned flattener gives back the same distribution: same classes, same nesting, same variable parameters, same fixed parameters.", "quantifier": "every well-formed distribution object of every family, of every batch shape and dimension, and every nesting of joint distributions", "why_tests_cant": "The test flattens a few random generated distributions per family; it cannot range over all nesting depths, dimensions, batch shapes and real parameter values.", "anchors": ["efax/_src/structure.py: Flattener.flatten, Flattener.unflatten, Flattener._make_flat", "efax/_src/parameter.py: Ring/Support.flattened, unflattened"]}
{"id": "C02", "title": "Flatten then unflatten restores the distribution (raw mode)", "statement": "With map_to_plane=False, flattening any well-formed distribution (no condition on the parameter values beyond matrices being symmetric/Hermitian as declared) and unflattening gives back the same distribution.", "quantifier": "every well-formed distribution, nesting, dimension and batch shape, every parameter value", "why_tests_cant": "Same as C01: infinitely many shapes, nestings and values.", "anchors": ["efax/_src/structure.py: Flattener.flatten, Flattener.unflatten", "efax/_src/parameter.py: Support.flattened/unflattened"]}
{"id": "C03", "title": "Unflatten then flatten restores the vector", "statement": "If a flattener accepts a real array, flattening the distribution it produces (in the same mode) returns the same real array; hence unflatten is injective and an optimiser moving in flat space never has two flat points for one distribution.", "quantifier": "every flattener obtained from a well-formed distribution and every real array of the matching length whose complex/disk blocks are non-zero", "why_tests_cant": "Needs all real arrays; the tests only start from distributions, never from arbitrary arrays.", "anchors": ["efax/_src/structure.py: Flattener.flatten, Flattener.unflatten", "efax/_src/parameter.py"]}
{"id": "C04", "title": "Flattened length and shape are determined by the structure", "statement": "The flattened array has shape (*batch shape, N) where N is the sum over the variable parameters, in post-order, of the element count of their support at the distribution's dimension (1 for a real scalar, d for a vector, d(d+1)/2 for a symmetric matrix, doubled for complex); it does not depend on parameter values or on the mode.", "quantifier": "every well-formed distribution tree, both modes", "why_tests_cant": "Universally quantified over dimensions and nestings.", "anchors": ["efax/_src/structure.py: Flattener.flatten, _make_flat", "efax/_src/parameter.py: num_elements, flattened"]}
{"id": "C05", "title": "Unflatten rejects exactly the arrays of the wrong length", "statement": "Unflatten raises ValueError('Incompatible array') when the last axis is shorter or longer than N, and never raises it when the length is N; no wrong-length array is silently accepted or truncated.", "quantifier": "every flattener and every real array", "why_tests_cant": "A test can only try finitely many lengths.", "anchors": ["efax/_src/structure.py: Flattener.unflatten 234-266"]}
{"id": "C06", "title": "Plane-mapped unflatten lands inside the declared real supports", "statement": "Whatever real numbers (for instance the output of a neural network) are unflattened in plane-mapped mode, each resulting real scalar/vector parameter lies strictly inside the open interval declared for it (positive rates, probabilities in (0,1), ...), including the epsilon margin added at construction of the interval.", "quantifier": "every real array of the right length, every real ring with any of the four bound patterns", "why_tests_cant": "The claim ranges over all real inputs.", "anchors": ["efax/_src/parameter.py: RealField.__post_init__, RealField.unflattened", "efax/_src/structure.py: Flattener.unflatten"]}
{"id": "C07", "title": "Plane-mapped unflatten of complex and disk-bounded parameters is finite and inside the support for every input", "statement": "Unflattening any real array in plane-mapped mode yields a finite complex value with minimum_modulus <= |z| (< maximum_modulus when bounded), respectively a finite vector inside the disk. (The code violates this at the origin of the plane: 0/0.)", "quantifier": "every real array, every complex ring and every circular support", "why_tests_cant": "Random tests hit the origin with probability zero.", "anchors": ["efax/_src/parameter.py: ComplexField._unflattened 151-163, CircularBoundedSupport.unflattened 449-460, ComplexField.flattened 122-140"]}
{"id": "C08", "title": "Symmetric and Hermitian matrices survive flattening; unflattened matrices are symmetric", "statement": "For a symmetric (Hermitian) matrix parameter, the upper-triangle encoding followed by decoding is the identity, decoding any real array of length d(d+1)/2 gives a symmetric matrix, and encoding it again returns the array.", "quantifier": "every dimension d, every batch shape, every matrix", "why_tests_cant": "Dimension and entries are unbounded.", "anchors": ["efax/_src/parameter.py: SymmetricMatrixSupport.flattened/unflattened 374-397"]}
{"id": "C09", "title": "Symmetric-matrix decoding accepts exactly the triangular lengths", "statement": "Decoding a symmetric matrix from k numbers raises ValueError exactly when k is not of the form d(d+1)/2, and otherwise produces a d-by-d matrix for that unique d.", "quantifier": "every natural number k", "why_tests_cant": "Number-theoretic statement about all k.", "anchors": ["efax/_src/parameter.py: SymmetricMatrixSupport.unflattened 381-397"]}
{"id": "C10", "title": "Clamping puts observations inside the ring and changes nothing already inside", "statement": "RealField.clamp returns a value within [minimum+eps, maximum-eps], is idempotent, is the identity on values already there, is monotone, and clamped values can always be flattened to the plane and back.", "quantifier": "every real x, every interval wide enough for the margin", "why_tests_cant": "All reals and all bounds.", "anchors": ["efax/_src/parameter.py: RealField.clamp 105-109"]}
{"id": "C11", "title": "Clamping to the simplex yields a point of the open simplex", "statement": "SimplexSupport.clamp returns a vector with positive entries whose sum is strictly below 1, so that log(1 - sum) in the Dirichlet statistics is finite. (The code violates this: the final clip can push the sum back to 1 or above.)", "quantifier": "every non-negative vector of every dimension", "why_tests_cant": "Boundary vectors have probability zero under random tests.", "anchors": ["efax/_src/parameter.py: SimplexSupport.clamp 335-339", "efax/_src/distributions/dirichlet.py: sufficient_statistics"]}
{"id": "C12", "title": "A simplex value can be flattened and unflattened", "statement": "SimplexSupport.unflattened accepts what SimplexSupport.flattened produces. (The code violates this: the decoder asserts one more coordinate than num_elements announces.)", "quantifier": "every dimension and every simplex-valued array", "why_tests_cant": "No test unflattens a simplex; the statement is for every dimension.", "anchors": ["efax/_src/parameter.py: SimplexSupport 311-343"]}
{"id": "C13", "title": "parameters() enumerates every parameter exactly once and the fixed flag partitions them", "statement": "parameters(p) lists every declared parameter of every sub-distribution exactly once under its full path; fixed=True and fixed=False give disjoint sub-dictionaries whose union is the whole; recurse=False gives only the node's own parameters.", "quantifier": "every well-formed distribution tree", "why_tests_cant": "Trees are unbounded.", "anchors": ["efax/_src/iteration.py: parameters 104-148, support 151-183"]}
{"id": "C14", "title": "Assembling a distribution from its own parameters is the identity", "statement": "Structure.create(p).assemble(parameters(p)) equals p; more generally assemble(values) has exactly the given values at each path; a missing path raises KeyError.", "quantifier": "every well-formed distribution tree and every dictionary of values covering its paths", "why_tests_cant": "Unbounded trees and dictionaries.", "anchors": ["efax/_src/structure.py: Structure.create, assemble 72-86, _walk"]}
{"id": "C15", "title": "Indexing a distribution indexes each parameter and nothing else", "statement": "p[key] is a distribution of the same structure in which each parameter (fixed and variable) is indexed by key; indexing commutes with nesting, and its batch shape is the indexed batch shape.", "quantifier": "every distribution tree, every in-range index tuple over the batch axes", "why_tests_cant": "Unbounded shapes and trees.", "anchors": ["efax/_src/parametrization.py: Distribution.__getitem__ 17-21"]}
{"id": "C16", "title": "parameter_map respects identity, composition, structure and fixed parameters", "statement": "parameter_map(f, x) applies f to every variable parameter, leaves fixed parameters and structure untouched; mapping the identity is the identity; mapping f then g is mapping their composition; with several arguments it combines corresponding parameters; mismatched parameter counts raise ValueError.", "quantifier": "every distribution tree, every operation", "why_tests_cant": "All functions and all trees.", "anchors": ["efax/_src/tools.py: parameter_map 43-56"]}
{"id": "C17", "title": "parameter_mean averages each parameter and preserves structure", "statement": "parameter_mean(x, axis) has the same structure as x and each parameter is the mean of the corresponding parameter over the axes meant by axis (None for all axes, or a tuple of axes, which may be negative); it succeeds whenever these axes exist, are different and not empty; the mean of n identical copies is the original.", "quantifier": "every distribution tree, every shape, every axis argument", "why_tests_cant": "All trees, shapes and axis arguments.", "anchors": ["efax/_src/tools.py: parameter_mean 35-40"]}
{"id": "C18", "title": "parameter_dot_product is bilinear and additive over sub-distributions", "statement": "The dot product of natural and expectation parameters is real-bilinear, sums over all variable parameters of all sub-distributions, ignores fixed parameters, and on a joint distribution is the sum of the dot products of the parts, and is only defined if both sides have equally many variable parameters with the same numbers of axes.", "quantifier": "all pairs of distributions with matching structure", "why_tests_cant": "All real values and trees.", "anchors": ["efax/_src/tools.py: parameter_dot_product 19-29, _parameter_dot_product 83-86"]}
{"id": "C19", "title": "Natural and expectation structures correspond", "statement": "Structure.to_exp and Structure.to_nat are mutually inverse on the structures of natural (expectation) distributions, keep paths, dimensions and names, commute with converting the distribution itself, and for each family the two classes declare the same number of variable and fixed parameters with the same axes in the same order.", "quantifier": "every family and every nesting", "why_tests_cant": "Nestings are unbounded; the class table is checked exhaustively.", "anchors": ["efax/_src/structure.py: Structure.to_nat, to_exp 53-70", "efax/_src/distributions/*: natural_parametrization_cls, expectation_parametrization_cls"]}
{"id": "C20", "title": "Reinterpretation keeps every parameter value at its place", "statement": "Structure.create(p).reinterpret(q), for q of the same tree shape, is the distribution with p's classes whose parameters, sub-distribution by sub-distribution, are q's values; reinterpreting back returns q; a different number of parameters raises ValueError.", "quantifier": "all pairs of distribution trees", "why_tests_cant": "Unbounded trees; relies on pre- and post-order agreeing on leaves.", "anchors": ["efax/_src/structure.py: Structure.reinterpret 88-95"]}
{"id": "C21", "title": "domain_support lists exactly the simple sub-distributions", "statement": "Structure.domain_support maps the path of every simple (non-joint) sub-distribution, and nothing else, to the domain support of its class.", "quantifier": "every distribution tree", "why_tests_cant": "Unbounded trees.", "anchors": ["efax/_src/structure.py: Structure.domain_support 97-101"]}
{"id": "C22", "title": "generate_random produces a distribution of the requested structure and shape with parameters in their supports", "statement": "Structure.create(s.generate_random(rng, shape)) equals s, each generated parameter has shape (*shape, *support shape) and lies in its declared support, for every stream of random draws in the ranges of the primitive generators.", "quantifier": "every structure, every batch shape, every random stream", "why_tests_cant": "All random streams.", "anchors": ["efax/_src/structure.py: Structure.generate_random 103-112", "efax/_src/parameter.py: generate"]}
{"id": "C23", "title": "flatten_mapping and unflatten_mapping are inverse", "statement": "unflatten_mapping(flatten_mapping(m)) == m for every nested dictionary without empty sub-dictionaries, and flatten_mapping(unflatten_mapping(d)) == d for every path dictionary with non-empty prefix-free paths; empty sub-dictionaries are lost.", "quantifier": "all nested dictionaries", "why_tests_cant": "Unbounded nesting.", "anchors": ["efax/_src/iteration.py: flatten_mapping 12-25, unflatten_mapping 28-36"]}
{"id": "C24", "title": "join_mappings joins by key", "statement": "join_mappings(a=A, b=B) maps every key of A or B to the dictionary of exactly those fields whose mapping contains the key, with the value found there, so that for equal key sets every entry has all fields.", "quantifier": "all finite mappings", "why_tests_cant": "All dictionaries.", "anchors": ["efax/_src/tools.py: join_mappings 63-75"]}
{"id": "C25", "title": "Sufficient statistics of a joint observation are the statistics of the parts", "statement": "For a joint estimator and a nested observation dictionary of matching shape, sufficient_statistics returns a distribution of the estimator's structure whose leaf at each path is the leaf class's statistics of the observation at that path with that leaf's fixed parameters; a missing leaf observation raises.", "quantifier": "every estimator tree and observation dictionary", "why_tests_cant": "Unbounded trees.", "anchors": ["efax/_src/structure.py: MaximumLikelihoodEstimator.sufficient_statistics 178-215"]}
{"id": "C26", "title": "Joint sampling gives every samplable part its own key", "statement": "general_sample returns a dictionary with the nesting of the joint distribution in which the sample of the i-th samplable leaf is drawn with the i-th key of split(key, number of samplable leaves): no key is used twice and the parent key is never reused.", "quantifier": "every joint distribution tree", "why_tests_cant": "Key reuse is invisible to sample-mean tests.", "anchors": ["efax/_src/transform/joint.py: general_method 26-33, general_sample 35-53, as_dict 55-60"]}
{"id": "C27", "title": "Fixed parameters are preserved by every conversion", "statement": "to_exp, to_nat, flatten/unflatten, parameter_map and sufficient statistics leave the fixed parameters (number of failures, Weibull concentration, fixed variance) unchanged.", "quantifier": "all distributions with fixed parameters, all values", "why_tests_cant": "All values.", "anchors": ["efax/_src/distributions/negative_binomial.py", "efax/_src/distributions/weibull.py", "efax/_src/distributions/multivariate_normal/fixed_variance.py", "efax/_src/structure.py"]}
{"id": "C28", "title": "Every density integrates to one", "statement": "For natural parameters in the family's natural domain, the exponential of log_pdf is non-negative and its integral (sum) over the documented support with respect to Lebesgue (counting) measure is exactly 1.", "quantifier": "every family with a closed form normaliser, every parameter in the natural domain, every dimension", "why_tests_cant": "Tests compare with SciPy at ten random points; an integral over all x for all parameters is out of reach.", "anchors": ["efax/_src/natural_parametrization.py: pdf, log_pdf", "efax/_src/distributions/*: log_normalizer, carrier_measure, sufficient_statistics"]}
{"id": "C29", "title": "to_exp is the gradient of the log-normaliser", "statement": "For every family, the directional derivative of log_normalizer at q along any direction v equals parameter_dot_product(v, q.to_exp()); this is what the custom JVP rule installs, so automatic differentiation of log_normalizer is correct.", "quantifier": "every family, every q in the natural domain, every direction", "why_tests_cant": "The custom rule replaces the true derivative, so autodiff-based tests compare the rule with itself except at sampled points.", "anchors": ["efax/_src/natural_parametrization.py: log_normalizer_jvp 26-35", "efax/_src/distributions/*: log_normalizer, to_exp"]}
{"id": "C30", "title": "to_exp is the expectation of the sufficient statistics", "statement": "q.to_exp() equals the expected value, under the density q.pdf, of the sufficient statistics of an observation.", "quantifier": "every family, every q in the natural domain", "why_tests_cant": "Monte-Carlo tests only approximate this for a few parameters.", "anchors": ["efax/_src/distributions/*: to_exp, sufficient_statistics", "efax/_src/natural_parametrization.py: log_pdf"]}
{"id": "C31", "title": "Closed-form to_nat inverts to_exp", "statement": "For families with a closed-form conversion, q.to_exp().to_nat() == q for all q in the natural domain and p.to_nat().to_exp() == p for all p in the mean domain, and each conversion lands in the other's domain.", "quantifier": "every closed-form family, all parameters in the domain", "why_tests_cant": "All real parameter values.", "anchors": ["efax/_src/distributions/*: to_exp, to_nat"]}
{"id": "C32", "title": "Iterative to_nat is exact when its root finder is exact", "statement": "For families converted by search (gamma, chi-square, chi, Dirichlet, beta, generalized Dirichlet, logarithmic, von Mises-Fisher): every search vector is mapped to a valid natural parameter, and the search gradient vanishes at s exactly when the natural parameter produced from s has self as its expectation parameters; with injectivity of to_exp the answer is the unique correct one.", "quantifier": "every expectation parameter, every search vector", "why_tests_cant": "All search vectors.", "anchors": ["efax/_src/mixins/exp_to_nat/exp_to_nat.py", "efax/_src/distributions/gamma.py: search_to_natural, search_gradient", "efax/_src/distributions/von_mises.py", "efax/_src/distributions/gen_dirichlet.py"]}
{"id": "C33", "title": "Expectation parameters identify the distribution", "statement": "Two natural parameters in the domain with the same expectation parameters are equal (to_exp is injective), so the conversion asked of to_nat is well defined.", "quantifier": "every minimal family, all parameter pairs", "why_tests_cant": "All pairs.", "anchors": ["efax/_src/distributions/*: to_exp"]}
{"id": "C34", "title": "kl_divergence is the Kullback-Leibler divergence", "statement": "p.kl_divergence(q) equals the integral of p.pdf times (log p.pdf - log q.pdf); it is non-negative, zero when p = q, and zero only when p = q; the natural and expectation versions agree.", "quantifier": "every family, all pairs of parameters", "why_tests_cant": "All pairs of parameters.", "anchors": ["efax/_src/expectation_parametrization.py: kl_divergence 37-52", "efax/_src/natural_parametrization.py: kl_divergence 172-173"]}
{"id": "C35", "title": "cross_entropy and entropy are the information-theoretic ones", "statement": "p.cross_entropy(q) equals -E_p[log q.pdf]; entropy equals -E_p[log p.pdf], identically from either parametrization; cross_entropy(p,q) - entropy(p) equals kl_divergence(p,q), so cross_entropy is minimised by q = p.", "quantifier": "every family with entropy, all parameters", "why_tests_cant": "All parameters.", "anchors": ["efax/_src/mixins/has_entropy.py 38-70", "efax/_src/distributions/*: expected_carrier_measure"]}
{"id": "C36", "title": "expected_carrier_measure is the expectation of the carrier measure", "statement": "The closed form returned by expected_carrier_measure equals E_p[carrier_measure(x)].", "quantifier": "every family with entropy, all parameters", "why_tests_cant": "All parameters; the tests compare entropies with SciPy at random points.", "anchors": ["efax/_src/distributions/*: expected_carrier_measure, carrier_measure"]}
{"id": "C37", "title": "Joint distributions are products of independent parts", "statement": "For joint distributions: log_normalizer, log_pdf, KL divergence, cross entropy and entropy are the sums of those of the parts, to_exp/to_nat act part by part and are mutually inverse when the parts' are; nesting makes no difference.", "quantifier": "every joint distribution, any number of parts, any nesting", "why_tests_cant": "Unbounded number of parts and nesting.", "anchors": ["efax/_src/transform/joint.py: JointDistributionE, JointDistributionN", "efax/_src/tools.py"]}
{"id": "C38", "title": "Conjugate priors are conjugate", "statement": "The log-density of p.conjugate_prior_distribution(n), as a function of the likelihood parameter theta, is n times the expected log-likelihood of theta under sufficient statistics p, up to a constant in theta; hence updating adds pseudo-observations, and the prior's mode is conjugate_prior_observation. (The exponential family violates this.)", "quantifier": "every family with a conjugate prior, every n >= 0, every p and theta", "why_tests_cant": "The test only checks that one gradient vanishes at one point.", "anchors": ["efax/_src/interfaces/conjugate_prior.py", "efax/_src/distributions/bernoulli.py, poisson.py, exponential.py, multinomial.py, normal/unit.py, multivariate_normal/unit.py, multivariate_normal/fixed_variance.py: conjugate_prior_distribution"]}
{"id": "C39", "title": "Generalized conjugate priors accept per-coordinate counts and extend the conjugate prior", "statement": "generalized_conjugate_prior_distribution(n) with n of the documented shape (*shape, dimensions) is defined and, for equal counts, has the density of the ordinary conjugate prior. (The multinomial violates this for two or more dimensions: shapes do not broadcast.)", "quantifier": "all dimensions, all counts", "why_tests_cant": "The multinomial is not in the test list.", "anchors": ["efax/_src/distributions/multinomial.py: 139-146", "efax/_src/distributions/multivariate_normal/unit.py", "efax/_src/distributions/multivariate_normal/fixed_variance.py"]}
{"id": "C40", "title": "Variance parametrizations agree with the other parametrizations", "statement": "For normal, diagonal normal, multivariate normal and gamma: converting VP to NP or EP and back, or VP->EP->NP versus VP->NP, gives the same distribution, and the stored mean and variance are the true mean and variance of the density.", "quantifier": "all parameters", "why_tests_cant": "All parameters.", "anchors": ["efax/_src/distributions/normal/normal.py: NormalVP", "efax/_src/distributions/gamma.py: GammaVP, to_var", "efax/_src/distributions/multivariate_normal/arbitrary.py, diagonal.py"]}
{"id": "C41", "title": "Transformed families have the density of the transformed variable", "statement": "The Rayleigh (chi) density at x is the exponential (chi-square) density at x^2 times 2x, i.e. the law of sqrt(Y); documented parameter meanings hold (the chi expectation parameter documented as E(log x) does not: it is E(log x^2)).", "quantifier": "all parameters and all positive x", "why_tests_cant": "All parameters and points.", "anchors": ["efax/_src/mixins/transformed_parametrization.py", "efax/_src/distributions/rayleigh.py", "efax/_src/distributions/chi.py"]}
{"id": "C42", "title": "Fisher information is the covariance of the sufficient statistics", "statement": "The Hessian of log_normalizer in raw flat coordinates is the covariance matrix of the (flattened, multiplicity-weighted) sufficient statistics under the density; it is symmetric positive semidefinite.", "quantifier": "all parameters of every family", "why_tests_cant": "All parameters.", "anchors": ["efax/_src/natural_parametrization.py: log_normalizer_jvp 26-36, _flat_log_normalizer 175-181, _fisher_information_matrix 184-189, apply_fisher_information 157-169"]}
{"id": "C43", "title": "fisher_information_diagonal returns the diagonal of the Fisher information", "statement": "Each parameter of fisher_information_diagonal() is the corresponding diagonal entry of the Fisher information, for every batch. (The code violates this for families with bounded parameters, where the diagonal is passed through the plane map, and for batches.)", "quantifier": "every family, every batch shape", "why_tests_cant": "The only test uses an unbounded family with empty batch shape.", "anchors": ["efax/_src/natural_parametrization.py: fisher_information_diagonal 112-123, fisher_information_trace 126-148"]}
{"id": "C44", "title": "Adding natural parameters combines evidence", "statement": "The density with natural parameters q1 + q2 is proportional to the product of the two densities divided by exp(carrier); scaling q scales log evidence. Both stay in the natural domain when it is a cone.", "quantifier": "all parameters, all x", "why_tests_cant": "All parameters and x.", "anchors": ["efax/_src/natural_parametrization.py: NaturalParametrization docstring 38-45, log_pdf"]}
{"id": "C45", "title": "The mean of sufficient statistics is the maximum-likelihood estimate", "statement": "If q has expectation parameters equal to the mean of the sufficient statistics of a data set, then no other q' in the domain gives the data a higher total log_pdf.", "quantifier": "all data sets of every size, all competing parameters", "why_tests_cant": "All data sets and competitors.", "anchors": ["efax/_src/structure.py: MaximumLikelihoodEstimator", "efax/_src/expectation_parametrization.py docstring"]}
{"id": "C46", "title": "Closed-form samplers produce the distribution's law", "statement": "Feeding the sampler's transformation with an ideal primitive draw (standard exponential, standard normal, ...) yields exactly the law whose density is q.pdf: exponential, normal, unit normal, isotropic/diagonal normal, Rayleigh, Weibull, gamma, negative binomial mixture.", "quantifier": "all parameters", "why_tests_cant": "Statistical tests cannot establish equality of laws.", "anchors": ["efax/_src/distributions/exponential.py: sample", "efax/_src/distributions/normal/normal.py: sample", "efax/_src/distributions/rayleigh.py", "efax/_src/distributions/weibull.py", "efax/_src/distributions/gamma.py", "efax/_src/distributions/negative_binomial.py"]}
{"id": "C47", "title": "Multinomial sampling can return every category", "statement": "MultinomialNP.sample returns the one-hot (last category: all-zero) vector of each category with probability nat_to_probability. (The code violates this: the last category is never drawn.)", "quantifier": "all log-odds", "why_tests_cant": "The multinomial is not in the test list.", "anchors": ["efax/_src/distributions/multinomial.py: sample 69-75, nat_to_probability 81-87"]}
{"id": "C48", "title": "Geometric sampling follows the documented support and mean", "statement": "GeometricEP.sample draws from {0,1,...} with mean equal to the expectation parameter. (The code violates this: it draws from {1,2,...} with success probability 1/mean, which is not even a probability when mean < 1.)", "quantifier": "all means", "why_tests_cant": "Sampling test tolerances and clamps hide support errors; means below one are random.", "anchors": ["efax/_src/distributions/geometric.py: sample 84-89"]}
{"id": "C49", "title": "Complex unit normal sampling has unit variance and zero pseudo-variance", "statement": "ComplexUnitNormalEP.sample returns mean + z with E|z|^2 = 1 and E z^2 = 0. (The code violates this: real and imaginary parts are the same draw, with E|z|^2 = 2 and E z^2 = 2i.)", "quantifier": "all means and keys", "why_tests_cant": "The tests only check the mean of samples.", "anchors": ["efax/_src/distributions/complex_normal/unit.py: sample 105-117", "efax/_src/distributions/cmvn/unit.py: sample 114-126"]}
{"id": "C50", "title": "The shape property is the batch shape", "statement": "q.shape equals the shape of each parameter with the support axes removed, is the same for every parameter, and equals the shape of log_normalizer(). (GammaVP violates this.)", "quantifier": "every family, every batch shape", "why_tests_cant": "All shapes.", "anchors": ["efax/_src/distributions/*: shape", "efax/_src/distributions/gamma.py: GammaVP.shape 157-159"]}
{"id": "C51", "title": "Methods act elementwise over the batch", "statement": "log_normalizer, to_exp, to_nat, log_pdf and kl_divergence of a batch, at batch index b, equal the same method applied to the distribution at index b.", "quantifier": "all batch shapes, all indices, all families", "why_tests_cant": "All shapes.", "anchors": ["efax/_src/distributions/*", "efax/_src/tools.py", "efax/_src/parametrization.py: __getitem__"]}
{"id": "C52", "title": "Probability vectors of Bernoulli and multinomial are probability vectors", "statement": "nat_to_probability returns strictly positive numbers summing to 1 in the documented order, equal to the pdf of each category, and nat_to_surprisal is their negative logarithm; the max-shift used for stability does not change the value.", "quantifier": "all log-odds vectors of all lengths", "why_tests_cant": "All real vectors.", "anchors": ["efax/_src/distributions/bernoulli.py 63-70", "efax/_src/distributions/multinomial.py 45-91"]}
{"id": "C53", "title": "Logarithmic distribution conversions are right at the edges", "statement": "LogarithmicNP.to_exp is the mean of the distribution (within rounding at the floor), and LogarithmicEP.to_nat maps chi = 1 to the limit log-probability -infinity and chi < 1 to NaN. (The code returns +infinity at chi = 1 and +infinity mean above the ceiling.)", "quantifier": "all log-probabilities, all chi", "why_tests_cant": "Edge values have probability zero in random tests.", "anchors": ["efax/_src/distributions/logarithmic.py: 46-52, 92-100"]}
{"id": "C54", "title": "von Mises-Fisher angle and concentration describe the natural parameter", "statement": "to_kappa_angle raises ValueError unless the dimension is 2, and otherwise (kappa cos angle, kappa sin angle) is the natural parameter, also at zero; the mean direction of to_exp is that of the natural parameter.", "quantifier": "all natural parameters", "why_tests_cant": "All vectors.", "anchors": ["efax/_src/distributions/von_mises.py: 52-85"]}
{"id": "C55", "title": "The log-normaliser is convex", "statement": "log_normalizer is convex along every segment in the natural domain (strictly, for minimal families), so likelihoods are log-concave in the natural parameters.", "quantifier": "all pairs of parameters, all weights", "why_tests_cant": "All pairs.", "anchors": ["efax/_src/distributions/*: log_normalizer"]}
{"id": "C56", "title": "domain_support describes the observations", "statement": "Every observation of a family (a value where its density is positive) has the type, the shape and the bounds that domain_support declares, and every value that domain_support declares is an observation. (The second half is violated by 23 classes, which declare whole real or integral fields.)", "quantifier": "all classes, all dimensions, all batch shapes, all arrays", "why_tests_cant": "The tests only draw samples, which never show that a support is too large.", "anchors": ["efax/_src/distributions/*: domain_support"]}
{"id": "C57", "title": "Densities are the textbook densities", "statement": "For each family pdf(q, x) equals the density given in textbooks and by scipy.stats, in the parameters to which the test-suite translates q: mean, variance, covariance, shape, scale, degrees of freedom, probability, concentration and direction.", "quantifier": "all natural parameters in the domain, all observations, all dimensions", "why_tests_cant": "The tests compare with scipy at a few random parameters.", "anchors": ["efax/_src/distributions/*: log_normalizer, sufficient_statistics, carrier_measure", "tests/create_info.py"]}
{"id": "C58", "title": "The replacement normal distributions of the test oracle are correct", "statement": "scipy_replacement's multivariate, complex and complex multivariate normal distributions accept exactly the parameters of a distribution, their pdf and entropy are the textbook ones (and hence those of the efax families they are compared with), and rvs draws from the law with the given mean, variance and pseudo-variance. (The complex multivariate class accepts parameters of no distribution.)", "quantifier": "all means, variances, pseudo-variances, observations and dimensions", "why_tests_cant": "These classes are the oracle of the tests; nothing tests them.", "anchors": ["efax/_src/scipy_replacement/multivariate_normal.py", "efax/_src/scipy_replacement/complex_normal.py", "efax/_src/scipy_replacement/complex_multivariate_normal.py"]}
{"id": "C59", "title": "The replacement Dirichlet distributions of the test oracle are correct", "statement": "ScipyGeneralizedDirichlet's pdf is the stick-breaking product of beta densities and rvs draws from that law (its entropy is not available and raises); ScipyDirichlet's pdf is the Dirichlet density on the simplex and raises elsewhere; both agree with the efax families they are compared with.", "quantifier": "all dimensions, all parameters, all observations", "why_tests_cant": "These classes are the oracle of the tests; nothing tests them.", "anchors": ["efax/_src/scipy_replacement/dirichlet.py"]}
{"id": "C60", "title": "Arrays of replacement distributions are the entrywise distributions", "statement": "For the classes of scipy_replacement that hold an array of distributions (ScipyMultivariateNormal.from_mc, ScipyComplexNormal, ScipyComplexMultivariateNormal, ScipyVonMises, ScipyVonMisesFisher, on ShapedDistribution), entry i of pdf and entropy is that of the distribution with the parameters of entry i, and rvs draws the requested number of observations from each distribution, in row-major order. pdf accepts what rvs returned, and as_multivariate_normal gives arrays of distributions that can be sampled.", "quantifier": "all batch shapes, sizes, parameters and observations", "why_tests_cant": "These classes are the oracle of the tests; nothing tests them.", "anchors": ["efax/_src/scipy_replacement/shaped_distribution.py", "efax/_src/scipy_replacement/multivariate_normal.py", "efax/_src/scipy_replacement/complex_normal.py", "efax/_src/scipy_replacement/complex_multivariate_normal.py", "efax/_src/scipy_replacement/von_mises.py"]}
{"id": "C61", "title": "Replacement joint and geometric distributions are correct", "statement": "ScipyJointDistribution's pdf at a dictionary of observations is the product of the densities of its parts whatever the order of the dictionary (KeyError when the names differ), its entropy is the sum and rvs draws from each part in turn; ScipyGeometric's pmf at one plus the number of failures is the density of the geometric family.", "quantifier": "all numbers of parts, all names, all observations, all batch shapes", "why_tests_cant": "These classes are the oracle of the tests; nothing tests them.", "anchors": ["efax/_src/scipy_replacement/joint.py", "efax/_src/scipy_replacement/geometric.py"]}
{"id": "C62", "title": "Sampling a batch samples every entry by itself", "statement": "sample(key, shape) of a samplable distribution returns an array of shape shape + batch shape + domain_support().shape(dimensions()), whose entry at (i, j) is the sample, without the argument shape, of the distribution [j] with the random numbers of this entry; the entry is computed from the primitive draws by the documented formula of the family. Classes that are not Samplable have no sample. general_sample of a joint distribution does this for every samplable part with a key of its own.", "quantifier": "all samplable classes in all three parametrizations, all batch shapes, sample shapes, dimensions, parameters, keys and random streams; joint distributions nested to any depth", "why_tests_cant": "test_sampling.py uses one batch shape and one sample shape and compares means.", "anchors": ["efax/_src/interfaces/samplable.py", "efax/_src/distributions", "efax/_src/transform/joint.py"]}
{"id": "C63", "title": "Samples of batches are independent draws from the right laws", "statement": "With ideal random numbers (seeds of different keys and of different entries of a result are independent, and the primitives of jax.random have their documented laws), the entries of sample(key, shape) of a batch of distributions are independent, and each has the law whose density is the pdf of the distribution at its trailing indices. The same holds across all entries of all parts of a joint distribution, because every part gets its own key.", "quantifier": "all samplable classes in all three parametrizations, all batch shapes, sample shapes, dimensions, parameters, keys; joint distributions nested to any depth", "why_tests_cant": "Tests compare sample means; they cannot establish independence, nor that a key is never used for two draws.", "anchors": ["efax/_src/distributions", "efax/_src/transform/joint.py"]}
{"id": "C64", "title": "Conjugate priors of batches are computed entry by entry", "statement": "conjugate_prior_distribution(n) of a batch, with n of the shape of the batch, returns a batch of priors of the same shape whose entry i is the prior of entry i with the count n[i]; likewise generalized_conjugate_prior_distribution with one count per coordinate; conjugate_prior_observation returns an array of observations of the prior, one per entry.", "quantifier": "all classes with conjugate priors, all batch shapes, dimensions, parameters and counts", "why_tests_cant": "test_conjugate_prior.py uses one batch shape, equal counts for all entries, and a tolerance of 1.5 on a gradient.", "anchors": ["efax/_src/interfaces/conjugate_prior.py", "efax/_src/distributions"]}
{"id": "C65", "title": "Multinomial log-normaliser is evaluated with shifted exponents", "statement": "The shift max_q is the largest of the log odds of all categories (that of the last category is zero), so that every argument of exp is at most zero, one of them is exactly zero, and the logarithm of the scaled sum lies between zero and the logarithm of the number of categories.", "quantifier": "all dimensions and all real log odds", "why_tests_cant": "Tests draw moderate log odds, for which the shift does not matter.", "anchors": ["efax/_src/distributions/multinomial.py"]}
{"id": "C66", "title": "apply_fisher_information applies the covariance of the statistics", "statement": "apply_fisher_information(vector) of a batch returns the expectation parameters and, for every entry, the product of the Fisher information (the covariance matrix of the sufficient statistics at that entry) with the vector at that entry, in the structure of the natural parameters. For a joint distribution this happens part by part.", "quantifier": "all simple natural classes, joint distributions nested to any depth, all batch shapes, dimensions, parameters in the natural domain and vectors", "why_tests_cant": "No test calls apply_fisher_information; a wrong transpose, a sum over the batch or a conjugation error for complex parameters would go unnoticed.", "anchors": ["efax/_src/natural_parametrization.py"]}
{"id": "C67", "title": "Densities at arrays of observations", "statement": "log_pdf(x) and pdf(x) of a batch of distributions of shape s accept observations with any additional leading axes t. The result has shape t + s, and the entry at index i of the leading axes is the density of the batch at x[i].", "quantifier": "all simple natural classes, joint distributions nested to any depth, all batch shapes, additional axes, dimensions, parameters and observations", "why_tests_cant": "Tests evaluate one array of observations per class, mostly of the shape of the batch; broadcasting that pairs observations with the wrong distribution gives a result of the right shape.", "anchors": ["efax/_src/natural_parametrization.py", "efax/_src/tools.py"]}
{"id": "C68", "title": "The laws of exponential families hold for joint distributions and batches", "statement": "For every object of the library, the arrays that it computes are the information-theoretic quantities of the densities that it computes: pdf integrates to one with respect to the (product) reference measure at every entry, to_exp() holds the expectations of the sufficient statistics and is the gradient of log_normalizer, the Hessian of log_normalizer is the covariance of the statistics, kl_divergence is the Kullback-Leibler divergence (non-negative, zero exactly for equal parameters), cross_entropy and entropy are those of the densities and differ by the divergence, and to_nat() undoes to_exp().", "quantifier": "all simple classes and joint distributions nested to any depth, all batch shapes, dimensions, valid parameters and observations", "why_tests_cant": "Tests check one or two random batches per class by Monte Carlo or finite differences and never a nested joint distribution; integrals over all observations cannot be sampled.", "anchors": ["efax/_src/natural_parametrization.py", "efax/_src/expectation_parametrization.py", "efax/_src/transform/joint.py", "efax/_src/mixins/has_entropy.py"]}
{"id": "C69", "title": "Maximum likelihood estimation for batches", "statement": "The recipe of the README and of tests/test_sampling.py (statistics of an estimator made from the expectation parameters with one new axis per axis of the observations, averaged with parameter_mean over these axes) succeeds for every non-empty array of observations, keeps structure and fixed parameters, and computes the maximum likelihood estimate: the observations enter the log-likelihood only through the result, and a distribution makes the observations most likely if and only if its to_exp() is the result, in which case it is the only one.", "quantifier": "all simple classes and joint distributions nested to any depth, all batch shapes, numbers and lengths of axes of observations, dimensions, valid parameters and observations", "why_tests_cant": "Tests compare the estimate with the true parameters for one random sample within a tolerance of several percent; an estimate that is merely consistent, or one that mixes entries of the batch slightly, passes.", "anchors": ["efax/_src/structure.py", "efax/_src/tools.py", "tests/test_sampling.py", "README.rst", "examples/maximum_likelihood_estimation.py"]}
{"id": "C70", "title": "The default one-dimensional search converges to the natural parameters", "statement": "For the classes whose search vector is a single number (gamma, chi-square, chi, logarithmic, von Mises-Fisher), ExpToNat.__post_init__ chooses the bisection, and for no other class with two or more search parameters; search_to_natural and search_gradient increase strictly; the start of the search is near the root (at most 1 for gamma, so the first interval contains it; at most 2 for von Mises-Fisher in two or more dimensions); so to_nat() of every batch differs from the true natural parameters by at most the tolerance of the bisection (for the rate of the gamma distribution: divided by the mean).", "quantifier": "all batch shapes, all valid parameters inside the stored bounds (for chi-square, chi and logarithmic: at a distance from the bound between exp(-reach) and reach, where reach is the distance up to which the bisection finds a root), all dimensions, all tolerances", "why_tests_cant": "Tests compare to_nat(to_exp()) for one random batch of moderate parameters; that the first interval contains the root for every mean and mean logarithm is an inequality of the digamma function, and for every mean direction one of Bessel functions.", "anchors": ["efax/_src/mixins/exp_to_nat/exp_to_nat.py", "efax/_src/mixins/exp_to_nat/optimistix.py", "efax/_src/distributions/gamma.py: search_to_natural, search_gradient, initial_search_parameters", "efax/_src/distributions/von_mises.py: initial_search_parameters, search_to_natural, search_gradient"]}
{"id": "C71", "title": "Derivatives of divergences and entropies, and continuity of to_nat", "statement": "The derivative of cross_entropy and kl_divergence in a direction of the prediction is the pairing of this direction with the difference of the expectation parameters (for any observed expectation parameters), and the derivative of kl_divergence in a direction of the observed distribution is a covariance of sufficient statistics. Stopping the gradient at to_nat() inside of entropy() does not change the derivative of the entropy, along any curve of distributions with differentiable expectation parameters. If expectation parameters converge to those of a distribution, the natural parameters that to_nat() returns converge to its natural parameters.", "quantifier": "all simple classes and joint distributions nested to any depth, all batch shapes, dimensions, valid parameters, directions, curves and limits", "why_tests_cant": "tests/test_entropy_gradient.py compares the gradient of the entropy with and without stop_gradient at one random distribution per class; optimizing a cross entropy is only shown in examples.", "anchors": ["efax/_src/mixins/has_entropy.py", "efax/_src/expectation_parametrization.py", "efax/_src/natural_parametrization.py", "tests/test_entropy_gradient.py", "examples/optimization.py"]}
{"id": "C72", "title": "The optimization example terminates with the right distribution", "statement": "The while_loop of examples/optimization.py (gradient descent on the cross entropy of Bernoulli distributions with parameter_map and step 1e-4, stopping when the squared gradient is at most 1e-6) terminates, after at most loss / (1e-10 (1 - 1e-4)) steps, each of which decreases the loss; the probabilities of the result differ from the given ones by at most 1e-3.", "quantifier": "all batch shapes, all probabilities from zero to one, all initial log-odds", "why_tests_cant": "The example is run by hand for three probabilities from one starting point; termination of an unbounded loop for all inputs cannot be tested.", "anchors": ["examples/optimization.py", "README.rst: Optimization", "efax/_src/tools.py: parameter_map, parameter_dot_product"]}
{"id": "C73", "title": "Estimates from samples are unbiased, efficient and consistent", "statement": "Sampling a batch of distributions and averaging the statistics of the samples, as tests/test_sampling.py does, gives estimates that are unbiased: every component has the corresponding expectation parameter as its mean. Their variance is the Fisher information (the second derivative of log_normalizer) divided by the number of samples, and the probability of a deviation of eps is at most the variance over eps squared. For the geometric and complex unit normal samplers, whose laws are wrong, the estimates are still unbiased but the variance is different; estimates from multinomial samples converge to the wrong probabilities.", "quantifier": "all samplable classes (natural, expectation and variance parametrizations), all batch shapes, all sample shapes, all parameters in the domain, all directions of the statistics, all keys, all ideal random number generators", "why_tests_cant": "A statistical test with one key and 65536 samples only sees that one estimate is within some percent; it cannot establish the mean, the variance or convergence, accepts samplers with the right mean and the wrong law, and does not cover the multinomial distribution at all.", "anchors": ["tests/test_sampling.py:25-126", "efax/_src/interfaces/samplable.py", "efax/_src/structure.py", "efax/_src/distributions/geometric.py:84-89", "efax/_src/distributions/complex_normal/unit.py:108-116", "efax/_src/distributions/multinomial.py:69-75"]}
{"id": "C74", "title": "Divergences and entropies are the textbook ones", "statement": "kl_divergence and entropy, of batches of natural or of expectation parameters, compute the closed formulas of the textbooks in the parameters of the densities: those of tests/test_kl.py for normal, multivariate normal and gamma, and those that scipy evaluates (tests/test_match_scipy.py) for the other classes, for example log(B(a', b')/B(a, b)) + ... for beta, the sum over the pieces of the broken stick for generalized Dirichlet, and Bessel quotients for von Mises-Fisher.", "quantifier": "all 27 classes for the divergence, the 24 classes with entropy() for the entropy, all batch shapes, all dimensions, all parameters in the domain", "why_tests_cant": "tests/test_kl.py compares three classes at random parameters up to 1e-5; test_match_scipy.py compares entropies at a few random parameters against numerical or partly home-made implementations, and skips several classes; neither covers all dimensions or parameters near the boundary.", "anchors": ["tests/test_kl.py:31-80", "tests/test_match_scipy.py:20-60", "efax/_src/natural_parametrization.py", "efax/_src/expectation_parametrization.py", "efax/_src/mixins/has_entropy.py:18-40", "efax/_src/distributions"]}
{"id": "C75", "title": "The test-suite compares with the right distributions", "statement": "For every description of a distribution in the test-suite (DistributionInfo and its subclasses, JointInfo nested to any depth), nat_to_scipy_distribution and exp_to_scipy_distribution give distributions of scipy.stats (or of its replacements) whose pdf, at every observation that can be drawn from them, equals pdf of the efax distribution at scipy_to_exp_family_observation of that observation, and whose entropy equals entropy() of the efax distribution. nat_structure() and exp_structure() are the structures of the described distributions (with reversed paths for nested joint distributions), and entropies are compared exactly for the distributions where both sides have one.", "quantifier": "all 27 descriptions of simple distributions in every admissible dimension and all joint descriptions of any depth, all batch shapes, all parameters inside the natural domain, all observations that can be drawn", "why_tests_cant": "The translation is the oracle of tests/test_match_scipy.py, so an error common to the translation and the library stays invisible; tests draw a few parameters and observations, in the dimensions of create_infos() only, and compare up to tolerances.", "anchors": ["tests/create_info.py:33-559", "tests/distribution_info.py:19-80", "tests/conftest.py:58-124", "tests/test_match_scipy.py:20-141", "efax/_src/scipy_replacement"]}
{"id": "C76", "title": "Unflattened and random parameters are parameters of distributions", "statement": "Flattener.unflatten in mapped mode, for the flattener of any simple or joint distribution and any array that it accepts, returns natural parameters inside the natural domain (where log_normalizer is finite and pdf is a density), exactly if the vectors of von Mises-Fisher distributions are not zero and the matrices of (complex) multivariate normal distributions are negative definite; for all other families this is always so. Structure.generate_random returns natural parameters inside the natural domain for every family, for random streams that give no zero vectors and no singular matrices, and so do the generators of parameters in the test-suite. The three exceptions for unflatten are real: arrays exist whose unflattened parameters define no distribution.", "quantifier": "all 27 natural parametrizations in any dimension and all joint distributions of any depth, all batch shapes, all arrays that unflatten accepts, all generic random streams", "why_tests_cant": "test_flatten only unflattens what was flattened, so that no new parameters arise; the tests rely on random parameters being valid and would report invalid ones as failures of something else, for the few streams that are drawn.", "anchors": ["efax/_src/structure.py:103-112", "efax/_src/structure.py:218-323", "efax/_src/parameter.py:60-411", "tests/distribution_info.py:40-51"]}
{"id": "C77", "title": "The Fisher information matrix of joint distributions", "statement": "_fisher_information_matrix() of every distribution, simple or joint, holds the covariances of the sufficient statistics in flat coordinates (at all coordinates that move the parameters within the family), entry by entry of the batch, and is positive definite; jeffreys_prior() is the square root of its determinant. For a joint distribution it is block diagonal with the matrices of the first part and of the joint distribution of the other parts (of the same order as the flat coordinates), and its Jeffreys prior is the product of theirs; a joint distribution of one part has the matrix and the prior of that part.", "quantifier": "all natural parametrizations in any dimension, all joint distributions of them of any depth, all batch shapes, all parameters in the natural domain (of logarithmic distributions: strictly between the limits of to_exp)", "why_tests_cant": "test_fisher_information_is_convex only looks at the signs of the eigenvalues and of the determinant, which a wrong matrix can have as well; it never compares the matrix of a joint distribution with those of its parts, and jeffreys_prior is not tested.", "anchors": ["efax/_src/natural_parametrization.py:26-36", "efax/_src/natural_parametrization.py:150-154", "efax/_src/natural_parametrization.py:174-189", "efax/_src/structure.py:218-331", "efax/_src/transform/joint.py:99-117"]}
{"id": "C78", "title": "Distributions and observations by path", "statement": "flat_dict_of_parameters lists every simple part of a (nested) distribution exactly once, under its path, and flat_dict_of_observations every array of a nested observation; a simple distribution and a single array are listed under the empty path. For an observation that is nested as the distribution, in any order, both have the same paths, so that clamping every array to the domain of its part and nesting the result again (as the tests do) succeeds and gives the observation with clamped arrays; it fails if an array belongs to no simple part.", "quantifier": "all distributions of any nesting, all observations (nested dictionaries without empty sub-dictionaries)", "why_tests_cant": "The test-suite has one joint distribution, of two simple parts, whose observations are in the order of the parts.", "anchors": ["efax/_src/iteration.py:12-36", "efax/_src/iteration.py:186-196", "efax/_src/transform/joint.py:26-60", "tests/test_match_scipy.py:128-134"]}
{"id": "C79", "title": "The Fisher information matrix in its textbook form", "statement": "_fisher_information_matrix() of every batch is the textbook covariance of the sufficient statistics in the textbook parameters of the distribution (means and variances, shapes and scales, probabilities, concentrations), for every pair of flat coordinates: trigamma functions for the gamma, chi-square, chi, Dirichlet, beta and generalized Dirichlet families, ratios of Bessel functions for von Mises-Fisher, fourth moments for all normal families. For the two distributions of tests/test_fisher_information.py the matrix, fisher_information_diagonal() and fisher_information_trace() are exactly the values there (before rounding).", "quantifier": "all natural parametrizations with full-rank Fisher information except the circularly symmetric multivariate complex normal, in any dimension, all batch shapes, all parameters inside the domain (logarithmic: between the limits of to_exp)", "why_tests_cant": "Only two bivariate normal distributions are compared with known values; for all others the tests check the signs of eigenvalues and of the determinant.", "anchors": ["efax/_src/natural_parametrization.py:111-148", "efax/_src/natural_parametrization.py:183-200", "efax/_src/distributions/gamma.py", "efax/_src/distributions/multivariate_normal/arbitrary.py", "tests/test_fisher_information.py:15-53"]}
{"id": "C80", "title": "The test-suite passes in exact arithmetic, for every random stream and description", "statement": "Run with exact arithmetic, on any random stream that satisfies what random numbers satisfy with probability one, and on any description of a simple or (not nested) joint distribution in any dimension, test_conversion (natural to expectation and back, and the fixed parameters), the comparison of forward derivatives of the log-normalizer, test_shapes, test_flatten, test_raises and test_fisher_information_is_convex pass. test_conversion and test_shapes need searches that find what they search for, where the family searches; test_flatten of expectation parameters needs them strictly inside the bounds. test_shapes fails, with AssertionError from cross_entropy, for every joint description with a part whose entropy is not known.", "quantifier": "all 27 families of the test-suite in any dimension and all joint descriptions without nesting, all random streams in the ranges of the generators that avoid events of probability zero", "why_tests_cant": "The tests run on one seed and a fixed list of descriptions and dimensions; a test that passes for some streams only, or a list that happens to leave out a failing combination, cannot be noticed by running it. The only joint description of the list has parts with entropies.", "anchors": ["tests/test_distributions.py:20-108", "tests/test_shapes.py", "tests/test_flatten.py", "tests/test_fisher_information.py:56-76", "efax/_src/expectation_parametrization.py", "efax/_src/transform/joint.py"]}
{"id": "C81", "title": "The comparisons with scipy.stats and the tests of Kullback-Leibler divergences pass in exact arithmetic", "statement": "Run with exact arithmetic on any random stream that avoids events of probability zero, test_nat_entropy, test_exp_entropy and test_pdf, including its checks of the shape of the drawn observation, pass for every description of a simple or joint distribution, where scipy.stats is represented by the density and entropy of the textbooks; and test_normal_kl, test_mvn_kl and test_gamma_kl pass, whose expected values are computed from variances, inverses, determinants, traces and gamma functions.", "quantifier": "all families and joint descriptions of the test-suite in any dimension, all random streams in the ranges of the generators that avoid events of probability zero, all draws of observations in the range of the distribution", "why_tests_cant": "The tests compare a few numbers for one seed within a tolerance; an expected value that is wrong only for some parameters, or a code path not reached by the seed, goes unnoticed.", "anchors": ["tests/test_match_scipy.py", "tests/test_kl.py", "efax/_src/mixins/has_entropy.py", "efax/_src/natural_parametrization.py", "efax/_src/expectation_parametrization.py"]}
{"id": "C82", "title": "The conversions by search reach exactly the natural parameters inside the declared bounds", "statement": "There is a function that maps expectation parameters to search vectors such that, used as minimizer, to_nat() undoes to_exp() for every distribution, simple or joint, whose natural parameters lie inside the stored bounds of their supports (for generalized Dirichlet distributions: gamma positive). Conversely, whatever the minimizer returns, to_nat() only finds natural parameters inside these bounds. With that minimizer, the conversion tests pass whenever the expectation parameters lie strictly inside their supports. For generalized Dirichlet distributions with a negative gamma, which exist, no minimizer makes to_nat() undo to_exp(). Outside the narrowed bounds of the expectation parameters (a gamma mean below machine epsilon, an expected log-probability above minus machine epsilon) to_nat() fails whatever the minimizer, and there are gamma and beta distributions whose expectation parameters lie there. A joint distribution with a part whose to_nat() fails, however deeply nested, has no to_nat() either, and where to_nat() fails so do entropy() of the expectation parameters and kl_divergence() without the natural parameters.", "quantifier": "all simple and joint distributions in any dimension, all batch shapes, all minimizers", "why_tests_cant": "Tests only see the minimizer that is installed and parameters drawn inside the bounds; that no minimizer could do better, or that some minimizer does all that is needed, is a statement about all functions.", "anchors": ["efax/_src/mixins/exp_to_nat/exp_to_nat.py", "efax/_src/distributions/gamma.py", "efax/_src/distributions/gen_dirichlet.py", "efax/_src/distributions/dirichlet_common.py", "efax/_src/distributions/chi_square.py", "efax/_src/distributions/logarithmic.py", "efax/_src/distributions/von_mises.py", "efax/_src/parameter.py"]}
{"id": "C83", "title": "The gradient of the log-normalizer with respect to every stored entry is the expectation parameters", "statement": "For every simple or joint distribution and every batch shape, the derivatives of the sum of log_normalizer with respect to every entry of every stored array, including single entries of symmetric and Hermitian matrices whose mirror images stay fixed, computed without the custom derivative rule, and the cotangents computed by transposing the custom rule, both equal the variable parameters of to_exp() once reinterpreted by its structure; consequently test_gradient_log_normalizer_primals and test_gradient_log_normalizer_vjp pass for every random stream.", "quantifier": "all simple and joint distributions in any dimension, all batch shapes, all regular natural parameters, all random streams in the ranges of the generators that avoid events of probability zero", "why_tests_cant": "The tests compare derivatives at twenty random points of fixed dimension within a tolerance; a rule that is wrong only off the symmetric matrices, for batches, or in joint distributions with fixed parameters needs a statement about all of them.", "anchors": ["tests/test_distributions.py", "efax/_src/natural_parametrization.py", "efax/_src/structure.py", "efax/_src/distributions/multivariate_normal/arbitrary.py"]}
{"id": "C84", "title": "The prior observation is a stationary point of the density of the conjugate prior, and the tests of priors check exactly this", "statement": "For every class with a conjugate prior, every batch shape and all counts, conjugate_prior_distribution (for the multivariate normal classes also generalized_conjugate_prior_distribution) returns a batch of priors of the same shape whose density, differentiated in each entry of the observation, is zero at conjugate_prior_observation(). test_conjugate_prior and test_generalized_conjugate_prior pass for every distribution of the test-suite that their fixtures select and every generic random stream, and, whatever the implementation of the distributions, they pass only if the parameters have the method, the shapes agree and the density is stationary. For joint distributions of distributions with priors, which the fixtures would select, both tests fail.", "quantifier": "all batch shapes, all counts, all parameters in the domain (Bernoulli, Poisson, exponential, multinomial, normal with unit variance, multivariate normal with unit or fixed variance in any dimension), all random streams in the ranges of the generators that avoid events of probability zero, all implementations", "why_tests_cant": "The tests differentiate at twelve points with one count and accept derivatives up to 1.5; the multinomial class is not tested at all.", "anchors": ["tests/test_conjugate_prior.py", "tests/conftest.py", "efax/_src/interfaces/conjugate_prior.py", "efax/_src/distributions/bernoulli.py", "efax/_src/distributions/exponential.py", "efax/_src/distributions/multinomial.py"]}
{"id": "C85", "title": "Random generation reaches exactly the described values, and leaves nothing else out", "statement": "The values that the generate method of a support returns for some stream of the primitive generators are exactly those of the support moved inwards at open bounds: real arrays between the bounds (the upper bound excluded when there are two), complex arrays of modulus strictly between the bounds, all symmetric matrices of the prescribed semidefiniteness (Hermitian ones without a zero on the diagonal), all real vectors for the disk, integers that are at least ten times the lower bound. The declared support of every parameter of every class is of this kind. Every simple or joint distribution, of every batch shape, whose parameters are such values (for the complex normal distribution with the bound on the pseudo-precision that depends on the precision) is returned by generate_random for some stream. Negation: the failures of a generated negative binomial distribution are at least ten, although the support contains every positive integer.", "quantifier": "all supports with a spread, all dimensions, all batch shapes, all values, all structures", "why_tests_cant": "Which parameters a finite number of random draws can ever visit is a statement about all streams; no run of the tests shows that a value is never generated.", "anchors": ["efax/_src/parameter.py", "efax/_src/structure.py", "tests/distribution_info.py"]}
{"id": "C86", "title": "The tests pass exactly if what they assert holds for the generated parameters, and every such defect is found by some random stream", "statement": "For an arbitrary implementation of the methods of distributions, each of the tests of conversions, derivatives of the log-normalizer (three tests), entropies, densities, shapes, flattening, convexity and divergences passes exactly if each of its rounds (10 or 20) generates parameters for which the asserted statement holds. If the statement fails for any parameters that random generation can return (C85), then there is a stream of the primitive generators for which the test fails. The test of conversions passes, for every generic stream, for an implementation in which the expectation parameter of the exponential distribution is twice the mean; the test of the derivative fails for it, for every generic stream.", "quantifier": "all implementations, all descriptions of distributions, all random streams, all parameters that can be generated", "why_tests_cant": "It is a statement about the tests themselves, and about all the programs they could be run against.", "anchors": ["tests/test_distributions.py", "tests/test_match_scipy.py", "tests/test_shapes.py", "tests/test_flatten.py", "tests/test_fisher_information.py", "tests/test_kl.py"]}
{"id": "C87", "title": "The test of sampling decides by the closeness of the means alone, and does not sample joint distributions as the library does", "statement": "For every description of distributions that the fixture selects, simple or joint, with natural or expectation parameters, every generic random stream and every key: test_sampling_and_estimation generates parameters, draws and clamps samples, the shapes of the samples are accepted, the maximum likelihood estimate is computed, and the test passes exactly if, for each parameter that is not fixed and each of its entries, the mean of the sufficient statistics of the 65536 samples is within the tolerances of the expectation parameter; otherwise it fails with an assertion error. verify_sample_shape accepts every observation of every batch. All parts of a joint distribution are sampled with one key, so that equal parts get equal samples, unlike JointDistribution.general_sample, which the test does not call. The tolerance 1e-3 is never used.", "quantifier": "all descriptions, all dimensions, all random streams, all keys and all behaviours of the primitive samplers", "why_tests_cant": "It is a statement about the test itself: what it can find wrong, for all results of the random number generators.", "anchors": ["tests/test_sampling.py", "efax/_src/transform/joint.py", "efax/_src/interfaces/samplable.py", "efax/_src/structure.py"]}
{"id": "C88", "title": "The test of maximum likelihood estimation decides by the closeness of the expectation parameters to the means alone", "statement": "For every description of distributions, simple or joint, every cooperative random stream and whatever variates of the right form scipy draws: test_maximum_likelihood_estimation generates expectation parameters, makes a distribution of scipy from them, translates and clamps the 70000 variates to observations, computes their sufficient statistics with the fixed parameters of the distribution and averages them, and the test passes exactly if, for each parameter that is not fixed and each of its entries, the expectation parameter is within the tolerances of the mean (the relative tolerance is that of the mean); otherwise it fails with an assertion error. The statistics of the negative binomial and the Weibull distribution broadcast the fixed parameter to the shape of the variates, so that the parameters computed by the test have a free parameter without axes and a fixed parameter with an axis of length 70000, which the comparison accepts because one of the compared arrays has no axes.", "quantifier": "all descriptions, all dimensions, all random streams and all variates", "why_tests_cant": "It is a statement about the test itself: what it can find wrong, for all variates.", "anchors": ["tests/test_match_scipy.py", "efax/_src/structure.py", "efax/_src/distributions/negative_binomial.py", "efax/_src/distributions/weibull.py"]}
{"id": "C89", "title": "The tests of the replacements of scipy.stats decide by the moments of the variates, or by whether anything is raised", "statement": "For every random stream and whatever the draws of scipy's multivariate normal: build_uvcn and build_mvcn make valid complex normal distributions (real positive variance, pseudo-variance of no larger modulus; positive definite covariance of the real and imaginary parts), with the variance and pseudo-variance the weighted sums of outer products that their lines say; test_univariate_rvs and test_multivariate_rvs pass exactly if, for each distribution of the batch, the sample mean, sample variance and sample pseudo-variance are within the tolerances of the true ones, where test_multivariate_rvs compares the real part of the sample variance with the complex variance and so fails, whatever the draws, as soon as the imaginary part of an entry exceeds 0.5 + 0.2 times its modulus; test_consistency never fails; test_shaped passes exactly if none of the five calls of rvs raises, because rvs returns the expected shape whenever it returns; it passes for every shaped normal and Dirichlet distribution, and without the repair of the squeezed axis it would fail exactly for distributions with one component.", "quantifier": "all shapes, all dimensions, all random streams and all draws", "why_tests_cant": "It is a statement about the tests themselves: what they accept and reject, for all draws.", "anchors": ["tests/test_complex_normal.py", "tests/test_scipy_distributions.py", "efax/_src/scipy_replacement/complex_normal.py", "efax/_src/scipy_replacement/complex_multivariate_normal.py", "efax/_src/scipy_replacement/shaped_distribution.py", "efax/_src/scipy_replacement/multivariate_normal.py", "efax/_src/scipy_replacement/dirichlet.py"]}
{"id": "C90", "title": "The gradient of the entropy is the covariance of the surprise and the sufficient statistics", "statement": "For every distribution of the library that has an entropy, simple or (nested) joint, and every batch of valid natural parameters: entropy() of the natural parameters is differentiable, and its derivative in every direction within the family is the covariance, under the density that pdf computes, of -log(pdf) and of the sufficient statistics paired with the direction. The sum of the entropies of the batch as a function of the flat array of Flattener.flatten(map_to_plane=False), which test_nat_entropy_gradient differentiates, has in every direction of the array the derivative that is the sum of these covariances over the batch. That test accepts, for all small steps of the central difference, every computed derivative that is within its tolerances of this sum, the true one among them, and rejects every other one. (The chi and chi-square distributions, whose expected carrier measure converts expectation parameters back by a search, need a search that finds the natural parameters.)", "quantifier": "all distributions with an entropy, all dimensions, all batch shapes, all valid parameters, all directions, all wrong derivatives", "why_tests_cant": "The test compares with a central difference for one random direction per batch, at a few random parameters; it does not relate the gradient to the density.", "anchors": ["tests/test_entropy_gradient.py", "efax/_src/mixins/has_entropy.py", "efax/_src/natural_parametrization.py", "efax/_src/structure.py"]}
{"id": "C91", "title": "carrier_measure has the shape of the observations, except for von Mises-Fisher distributions", "statement": "For every batch of shape s of simple or (nested) joint distributions and observations of shape (*t, *s) (leading axes are added by the observations): carrier_measure(x) has the shape of the observations and in each entry the carrier measure of the family at the observation, if at least one of the simple distributions it consists of is not a von Mises-Fisher distribution; otherwise it is the zero array of shape s. So its shape is that of log_pdf(x) exactly if no axes are added or some simple distribution is not von Mises-Fisher.", "quantifier": "all classes with a carrier measure, all nested joint distributions of them, all batch shapes and all shapes of observations", "why_tests_cant": "No test looks at the shape of the carrier measure, and log_pdf hides it by broadcasting.", "anchors": ["efax/_src/natural_parametrization.py", "efax/_src/distributions/von_mises.py", "efax/_src/distributions/weibull.py", "efax/_src/distributions/negative_binomial_common.py", "efax/_src/transform/joint.py"]}
{"id": "C92", "title": "What the test of the derivatives of samples decides", "statement": "test_sampling_cotangents passes for a batch exactly if for every parameter of the flat vector the sum over the batch and the entries of the sample of the first derivatives, or that of the second derivatives, is not zero; so it fails whenever some parameter does not change the samples. It passes for all batches of valid parameters (natural and expectation) of: the unit normal and the multivariate unit normal distributions, for all draws; the exponential and the Rayleigh distributions, if no draw is negative and one is positive; the normal distributions, for almost all draws; and for normal distributions it fails if all draws are zero.", "quantifier": "all batches of every size, all parameters within the stored bounds, all draws (as stated)", "why_tests_cant": "The test runs one batch of 23 random distributions of each class with one key.", "anchors": ["tests/test_hessian.py", "tests/conftest.py", "efax/_src/distributions/exponential.py", "efax/_src/distributions/rayleigh.py", "efax/_src/distributions/normal/normal.py", "efax/_src/distributions/normal/unit.py", "efax/_src/distributions/multivariate_normal/unit.py"]}
{"id": "C93", "title": "The stopped gradient of the entropy of expectation parameters", "statement": "entropy() of expectation parameters stops the gradient of the natural parameters that to_nat() returns, so that automatic differentiation computes the derivative of the cross entropies with constant natural parameters. This is the derivative of the sum of the entropies in every direction of the flat array along which to_nat() recovers the distributions near the start (it returns valid natural parameters whose to_exp() is the distribution). If to_nat() has a closed form, that is every direction. So test_exp_entropy_gradient passes for all small steps of the central difference; a derivative outside of the tolerances fails. test_gamma_vp_entropy_gradient passes for all tolerances, for every gamma distribution whose mean is in the support, if the root finder returns the roots; for any root finder, it passes exactly if the dot product of the natural parameters with the error of their expectation parameters, and the differences of the gradients, are within the tolerances.", "quantifier": "all batches, all valid parameters of all families with entropies except chi, chi square and von Mises-Fisher (and, for the closed form, the circularly symmetric complex normal distributions), all joint distributions of these, all directions", "why_tests_cant": "The tests compare numerical derivatives of one random batch of each class in one random direction, and gradients at one gamma distribution.", "anchors": ["tests/test_entropy_gradient.py", "efax/_src/mixins/has_entropy.py", "efax/_src/distributions/gamma.py", "efax/_src/structure.py"]}
{"id": "C94", "title": "No operation leaves its domain", "statement": "With every division, logarithm, log1p, logit, gammaln, digamma, power, Bessel function, matrix inverse and determinant checked for its domain: for valid parameters, log_normalizer(), to_exp(), to_nat() of the expectation parameters and expected_carrier_measure() are finite, and for almost every observation sufficient_statistics() and carrier_measure() are; so densities, divergences and entropies are finite. So are the surprisals, the conversions from and to variances, and the functions evaluated by the searches. For invalid parameters, log_normalizer() of the families that take the logarithm of a quantity that is positive for valid parameters only is never finite. The parameter zero of the von Mises-Fisher family, which the declared support contains, has no finite log-normalizer, and search_to_natural is not finite at the mean zero; the log-normalizers of the families with matrix parameters are finite for some invalid matrices.", "quantifier": "all families, all joint distributions of them nested to any depth, all valid (respectively invalid) parameters, almost all observations, all search vectors", "why_tests_cant": "The tests evaluate the methods at random parameters; divisions by zero and logarithms of numbers that are not positive happen on sets that random parameters do not hit.", "anchors": ["efax/_src/distributions/von_mises.py", "efax/_src/distributions/gamma.py", "efax/_src/distributions/complex_normal/complex_normal.py", "efax/_src/distributions/multivariate_normal/arbitrary.py", "efax/_src/natural_parametrization.py", "efax/_src/mixins/has_entropy.py", "efax/_src/transform/joint.py"]}
{"id": "C95", "title": "Subscripts select entries of the batch", "statement": "d[key], which applies the key to every parameter, commutes with everything: for every key that counts the axes from the first one and has a value for the shape of the batch, d[key] is a batch of the shape that the key gives to an array of the shape of d, its entries are the selected entries of d, and log_normalizer, to_exp, to_nat, log_pdf, kl_divergence, cross_entropy and entropy of d[key] are those of d at the key. Slices, integers, arrays of integers and masks select the indices that the specification of NumPy selects. A key with axes after an ellipsis addresses the axes of the parameters instead, so that the results are wrong if a parameter is a vector; and a key that is too long for the batch is accepted if the parameters have more axes.", "quantifier": "all families, all joint distributions of them nested to any depth, all batches, all keys (tuples of integers, slices, newaxis and an ellipsis; arrays of integers; masks)", "why_tests_cant": "The tests use tuples of integers, newaxis and one ellipsis.", "anchors": ["efax/_src/parametrization.py", "efax/_src/structure.py", "efax/_src/iteration.py"]}
{"id": "C96", "title": "Information projections, maximum entropy and convex conjugates", "statement": "Among all densities with respect to the reference measure, whether in the family or not: if the sufficient statistics have under g the means that they have under the density of a, then the divergence of g from the density of b is the divergence of g from the density of a plus a.kl_divergence(b), so a is the only best approximation; if also the carrier measure has the same mean, the entropy of g is at most a.entropy(), with equality only for the density of a. kl_divergence satisfies the identity of three points, to_exp is strictly monotone (its pairing with the parameters is the sum of the two divergences), and -entropy - expected_carrier_measure is the convex conjugate of log_normalizer, attained at to_nat only.", "quantifier": "all families, all joint distributions of them nested to any depth, all batches, all valid parameters, all densities with these means", "why_tests_cant": "The tests compare methods with each other and with scipy at random parameters; statements about all densities are not testable.", "anchors": ["efax/_src/natural_parametrization.py", "efax/_src/expectation_parametrization.py", "efax/_src/mixins/has_entropy.py", "efax/_src/transform/joint.py"]}
{"id": "C97", "title": "Batches of different shapes broadcast", "statement": "parameter_dot_product, cross_entropy, kl_divergence and log_pdf of arguments whose batch shapes differ follow NumPy's broadcasting rule: if the shapes broadcast, the result has the broadcast shape and each entry is the quantity of the entries of the arguments that stand at its position; if they do not, ValueError is raised. This holds in particular for the joint distributions, whose parts are added up, and for parameters that are vectors or matrices, whose axes do not take part. The exceptions are negative binomial and Weibull distributions, and joint distributions with one of them as a part: log_pdf of a batch of them raises ValueError unless the observations have the shape of the result.", "quantifier": "all families, all joint distributions of them nested to any depth, all pairs of batch shapes, all parameters and observations", "why_tests_cant": "The tests call these methods with equal shapes, or with a single distribution at a batch of observations.", "anchors": ["efax/_src/tools.py", "efax/_src/expectation_parametrization.py", "efax/_src/natural_parametrization.py", "efax/_src/mixins/has_entropy.py", "efax/_src/distributions/negative_binomial.py", "efax/_src/distributions/weibull.py"]}
{"id": "C98", "title": "Maximum likelihood estimates from samples exist and converge", "statement": "If enough samples are drawn by sample(), then with a probability as near 1 as desired there are natural parameters that make the samples strictly more likely (the sum of log_pdf) than all other parameters of the family, and each coordinate of them is as near as desired to the natural parameters of the distribution that was sampled. The recipe create_estimator, sufficient_statistics, parameter_mean finds them: its result has the components of their expectation parameters. The reason is that expectation parameters near those of a distribution are expectation parameters of a distribution nearby, for all families and joint distributions.", "quantifier": "all samplers of the library in both parametrizations, all batch shapes, all shapes of samples, all parameters in the domain, all tolerances and probabilities; C98_estimate for all families and all joint distributions nested to any depth", "why_tests_cant": "A test draws a fixed number of samples with fixed seeds and compares with a tolerance; it cannot see that estimates exist at all for all seeds but a small fraction, nor that they converge.", "anchors": ["efax/_src/interfaces/samplable.py", "efax/_src/structure.py", "efax/_src/tools.py", "examples/maximum_likelihood_estimation.py"]}
{"id": "C99", "title": "The examples print what their comments say", "statement": "examples/cross_entropy.py prints log 2 three times and then the cross entropies of 0.4, 0.5 and 0.6 with 0.3; to seven digits these are the numbers in its comments, and they increase. examples/maximum_likelihood_estimation.py, with n_samples large enough, prints numbers as near to alpha as desired with a probability as near 1 as desired, for every alpha of every dimension within the reach of the search, in particular [2, 3, 4], if the search finds the roots there are.", "quantifier": "the first example as it stands; the second for all alpha, dimensions, keys, tolerances and probabilities", "why_tests_cant": "The examples are not run by the tests, and the numbers in the comments are not compared with anything; one seed says nothing about others.", "anchors": ["examples/cross_entropy.py", "examples/maximum_likelihood_estimation.py", "efax/_src/distributions/bernoulli.py", "efax/_src/distributions/dirichlet.py", "efax/_src/structure.py", "efax/_src/tools.py"]}
{"id": "C100", "title": "No unbiased estimate is better than maximum likelihood estimation", "statement": "For every simple or joint distribution and every direction, let s be the second derivative of log_normalizer in this direction. Every estimate of the expected statistics in this direction from n independent observations, by whatever computation, that is unbiased near the parameters has a variance of at least s/n (Cram\u00e9r-Rao). The recipe of the tests (create_estimator, sufficient_statistics, parameter_mean) is unbiased and has the variance s/n, and every unbiased estimate with a variance that small agrees with it almost everywhere.", "quantifier": "all simple and joint distributions, all batch shapes, parameters inside the domain, directions, numbers and axes of observations, all functions of the observations", "why_tests_cant": "It compares the recipe with every other function of the observations; the tests compare one estimate from one seed with the parameters, with a tolerance chosen by hand.", "anchors": ["tests/test_sampling.py", "efax/_src/structure.py", "efax/_src/tools.py", "efax/_src/natural_parametrization.py", "README.rst"]}
{"id": "C101", "title": "Estimates deviate with exponentially small probability, at the rate kl_divergence", "statement": "For every simple or joint distribution with parameters q, other parameters q' and every number n of independent observations of q: the probability that the recipe for maximum likelihood estimation estimates the component of the expectation parameters in the direction q' - q to be at least that of q' is at most exp(-n kl_divergence(q', q)). For every e > 0 it is at least exp(-n (kl_divergence(q', q) + e)) for all large n: the divergence that the code computes is the exact rate.", "quantifier": "all simple and joint distributions, all batch shapes, all pairs of parameters inside the domain, all numbers and axes of observations", "why_tests_cant": "The probabilities are far too small to be seen in samples, and the rate is a statement about the limit of infinitely many observations.", "anchors": ["efax/_src/expectation_parametrization.py", "efax/_src/natural_parametrization.py", "efax/_src/structure.py", "efax/_src/tools.py", "tests/test_kl.py", "tests/test_sampling.py"]}
{"id": "C102", "title": "The errors of estimates are asymptotically normal, and the Fisher information is their variance", "statement": "For every simple or joint distribution, every direction v in which its parameters change and every number n of independent observations: let R be the component in the direction v of the estimate by the recipe for maximum likelihood estimation, c the component of the expectation parameters, and s the second derivative of log_normalizer in the direction v. Then s > 0, and the distribution function of sqrt(n) (R - c) converges at every point to the distribution function of the normal distribution with mean 0 and variance s. In particular the probability that R <= c converges to 1/2.", "quantifier": "all simple and joint distributions, all batch shapes, all parameters inside the domain, all directions, all numbers and axes of observations", "why_tests_cant": "Tests compare averages of one sample with a tolerance; the shape of the errors is a statement about the limit of infinitely many observations.", "anchors": ["efax/_src/expectation_parametrization.py", "efax/_src/natural_parametrization.py", "efax/_src/structure.py", "efax/_src/tools.py", "tests/test_sampling.py", "tests/test_fisher_information.py"]}
{"id": "C103", "title": "In the natural parametrization, combining and scaling evidence are addition and scaling", "statement": "For every simple or joint distribution, all natural parametrizations a and b of the same tree and every number t: parameter_map(lambda x, y: x + t * y, a, b) succeeds and gives the object d of the parameters a + t b, with the fixed parameters of a; the order does not matter, and what has been added can be taken away. If d is a distribution, its computed density is f (g / exp(m))^t divided by its integral, where f and g are the computed densities of a and b and m is the carrier measure; the integral is the exponential of log_normalizer(d) - log_normalizer(a) - t log_normalizer(b). Scaling the parameters by s raises the density with respect to the carrier to the power s, normalized. Mixing, (1 - t) a + t b, gives the normalized geometric mean f^(1 - t) g^t, and this is the distribution whose divergences from a and b, as computed by kl_divergence and weighted by 1 - t and t, are least: for every r they exceed the least by kl_divergence(r, d). Sums with non-negative weights of distributions are distributions for all classes but BetaNP, ChiNP, ChiSquareNP, DirichletNP, GammaNP, GeneralizedDirichletNP and VonMisesFisherNP, and mixtures with 0 <= t <= 1 for all classes but VonMisesFisherNP; but the density computed for the sum of the gamma distribution with the parameters (-1, -3/4) and itself does not integrate to one.", "quantifier": "all simple and joint distributions, all batch shapes, all parameters for which the combination is inside the domain, all real weights", "why_tests_cant": "No test combines distributions; the claim is the documented motivation of the natural parametrization, and it is about integrals over all observations and all weights.", "anchors": ["README.rst", "efax/_src/tools.py", "efax/_src/natural_parametrization.py", "efax/_src/structure.py"]}
{"id": "C104", "title": "In the expectation parametrization, mixing distributions is averaging", "statement": "For every simple or joint distribution: parameter_map(lambda x, y: x + t * y, a, b) of two expectation parametrizations of the same tree succeeds, and parameter_dot_product with natural parameters is linear in it. Let d be the average of a.to_exp() and b.to_exp() with the weights 1 - t and t. Under the mixture (1 - t) f + t g of the computed densities of a and b, which is a density if t is between 0 and 1, every sufficient statistic (as computed by the estimator and paired with natural parameters v) has the mean parameter_dot_product(v, d). If r.to_exp() is d, then r is the distribution from which the divergences of a and b, as computed by kl_divergence and weighted by 1 - t and t, are least: from any other distribution c they exceed the least by r.kl_divergence(c), which is positive.", "quantifier": "all simple and joint distributions, all batch shapes, all parameters inside the domains, all real weights", "why_tests_cant": "No test averages expectation parameters of distributions; the claim is the documented motivation of the expectation parametrization, and it is about integrals over all observations and about all competing distributions.", "anchors": ["README.rst", "efax/_src/tools.py", "efax/_src/expectation_parametrization.py", "efax/_src/natural_parametrization.py", "efax/_src/structure.py"]}
{"id": "C105", "title": "Averages of expectation parameters are converted back by to_nat", "statement": "Let a and b be valid distributions of the same tree and d the average of a.to_exp() and b.to_exp() with the weights 1 - t and t. If to_nat of all parts has a closed form and t is between 0 and 1, then d.to_nat() returns a valid distribution r whose to_exp() is d. If no part is a von Mises-Fisher distribution and t is between 0 and 1, there is a distribution r whose expectation parameters have the products of d with all natural parameters. There is one for von Mises-Fisher distributions as well if the natural parameters are nowhere in opposite directions. For every distribution there is one near a if t is small. In all cases r is the only distribution from which the weighted divergences of a and b, as computed by kl_divergence, are least. The restriction is needed: the average of a von Mises-Fisher distribution and the opposite one with equal weights belongs to no distribution of the class.", "quantifier": "all simple and joint distributions, all batch shapes, all parameters inside the domains, all weights between 0 and 1 (all small weights for von Mises-Fisher)", "why_tests_cant": "No test averages expectation parameters; the claim needs the convexity and openness of the sets of expectation parameters of all classes, and is about all competing distributions.", "anchors": ["README.rst", "efax/_src/tools.py", "efax/_src/expectation_parametrization.py", "efax/_src/natural_parametrization.py", "efax/_src/distributions/von_mises.py", "efax/_src/distributions/multivariate_normal/arbitrary.py", "efax/_src/distributions/complex_normal/complex_normal.py"]}

{"id": "C01", "title": "Relative log-density is a difference of root log-densities", "statement": "For measures m and b over the same root, `m.log_density().wrt(b).at(x)` returns m's log-density w.r.t. the root minus b's, whichever of the four exponential-family dispatch combinations is selected.", "quantifier": "all measures m, b (any parameters), all points x, all four (IsExponentialFamily, IsExponentialFamily) combinations, all number types", "why_tests_cant": "Ranges over every pair of measures and point, and over a memory layout the compiler may choose.", "anchors": ["measures-core/src/core/density.rs: EvaluateAt for LogDensity::at, ExpFamDispatch (4 impls)", "measures-core/src/core/density.rs: LogDensity::wrt"]}
{"id": "C02", "title": "Log-density algebra: identity, antisymmetry, chain rule", "statement": "Where the root log-densities are finite: the log-density of m w.r.t. itself is 0; the log-density of b w.r.t. m is minus that of m w.r.t. b; and (m w.r.t. b) + (b w.r.t. c) = (m w.r.t. c).", "quantifier": "all triples of measures sharing a root and all points where all three densities are finite", "why_tests_cant": "An algebraic law over all measures and points.", "anchors": ["measures-core/src/core/density.rs: module documentation, EvaluateAt::at"]}
{"id": "C03", "title": "wrt replaces only the base and the last wrt wins", "statement": "`m.log_density()` uses m's root measure as base; `.wrt(a).wrt(b)` evaluates exactly as `.wrt(b)`; wrt never changes the measure.", "quantifier": "all measures and all finite chains of wrt calls", "why_tests_cant": "Chains of any length.", "anchors": ["measures-core/src/core/density.rs: LogDensity::new, wrt, measure, base_measure", "measures-core/src/core/measure.rs: LogDensityBuilder::log_density"]}
{"id": "C04", "title": "The same-object shortcut never changes the answer", "statement": "The address-equality shortcut in `at` (returning 0) only fires when 0 is the correct relative log-density, for every layout of the builder struct the compiler may choose.", "quantifier": "all field sizes and all legal struct layouts", "why_tests_cant": "Quantifies over compiler layouts that a test run cannot vary.", "anchors": ["measures-core/src/core/density.rs: EvaluateAt::at lines 228-233"]}
{"id": "C05", "title": "Cached log-density is transparent", "statement": "For every history of calls, `cached().at(x)` returns what the uncached density returns at x, and the wrapped density is evaluated at most once per distinct point.", "quantifier": "all finite histories of evaluation points", "why_tests_cant": "All call histories.", "anchors": ["measures-core/src/core/density.rs: CachedLogDensity::at, LogDensityCaching::cached_for"]}
{"id": "C06", "title": "Batch log-density is pointwise", "statement": "`log_density_batch(m, xs)` has the length of xs and its i-th entry is m's log-density at xs[i].", "quantifier": "all measures, all input slices", "why_tests_cant": "Slices of any length.", "anchors": ["measures-core/src/core/density.rs: log_density_batch, log_density_at"]}
{"id": "C07", "title": "Structured decomposition evaluates to the sum of its terms and its IID form to the sum over the data", "statement": "`evaluate` is the sum of data, parameter, mixed and constant terms; `evaluate_iid(xs)` equals the sum over xs of `evaluate`.", "quantifier": "all decompositions (any number of terms), all data slices", "why_tests_cant": "Unbounded numbers of terms and observations.", "anchors": ["measures-core/src/core/log_density_decomposition.rs: evaluate, evaluate_iid, evaluate_param_terms, evaluate_data_terms, constant_sum, builder"]}
{"id": "C08", "title": "Shipped decompositions agree with the log-density", "statement": "For Normal, Cauchy and Student-t the decomposition's `evaluate` equals the distribution's log-density, and `log_density_iid` equals the sum of log-densities.", "quantifier": "all parameters, points and data slices", "why_tests_cant": "All real parameters and unbounded data.", "anchors": ["measures-distributions/src/distributions/continuous/normal.rs: log_density_decomposition, log_density_iid", "measures-distributions/src/distributions/continuous/cauchy.rs", "measures-distributions/src/distributions/continuous/student_t.rs"]}
{"id": "C09", "title": "Normal: log-density is the logarithm of the Gaussian density and integrates to one", "statement": "For every mean and standard deviation accepted by `Normal::new`, exp of the log-density at x is the N(mean, std_dev²) density and its Lebesgue integral is 1.", "quantifier": "all real means, all positive standard deviations, all x", "why_tests_cant": "Statement about an integral over the reals for all parameters.", "anchors": ["measures-distributions/src/distributions/continuous/normal.rs: Normal::new, log_density_wrt_root"]}
{"id": "C10", "title": "Exponential: density, support and normalisation", "statement": "For rate accepted by `Exponential::new`, the log-density is ln(rate) - rate*x for x>=0 and -inf otherwise, and its exponential integrates to 1.", "quantifier": "all positive rates, all x", "why_tests_cant": "Integral over the reals for all parameters.", "anchors": ["measures-distributions/src/distributions/continuous/exponential.rs: new, in_support, log_density_wrt_root"]}
{"id": "C11", "title": "Gamma: density, support and normalisation", "statement": "For accepted shape and rate, exp(log-density) is the Gamma(shape, rate) density, is 0 for x<=0, and integrates to 1.", "quantifier": "all positive shapes and rates, all x", "why_tests_cant": "Integral over the reals for all parameters.", "anchors": ["measures-distributions/src/distributions/continuous/gamma.rs: new, log_density_wrt_root"]}
{"id": "C12", "title": "Beta: density, support and normalisation", "statement": "For accepted alpha, beta, exp(log-density) is the Beta(alpha,beta) density on (0,1), 0 elsewhere, and integrates to 1.", "quantifier": "all positive alpha, beta, all x", "why_tests_cant": "Integral over the reals for all parameters.", "anchors": ["measures-distributions/src/distributions/continuous/beta.rs: new, log_density_wrt_root"]}
{"id": "C13", "title": "Chi-squared is Gamma(k/2, 1/2)", "statement": "`ChiSquared::new(k)` and `Gamma::new(k/2, 1/2)` have the same log-density and support at every point; the density integrates to 1.", "quantifier": "all positive k, all x", "why_tests_cant": "All reals.", "anchors": ["measures-distributions/src/distributions/continuous/chi_squared.rs", "measures-distributions/src/distributions/continuous/gamma.rs"]}
{"id": "C14", "title": "Cauchy: density and normalisation", "statement": "For accepted location and scale, exp(log-density) is the Cauchy density and integrates to 1.", "quantifier": "all locations, positive scales, all x", "why_tests_cant": "Integral over the reals.", "anchors": ["measures-distributions/src/distributions/continuous/cauchy.rs: log_pdf, log_density_wrt_root"]}
{"id": "C15", "title": "Student-t: density, Cauchy special case and normalisation", "statement": "For accepted degrees of freedom nu, the log-density is that of the t distribution with nu degrees of freedom; for nu=1 it is the standard Cauchy log-density; it integrates to 1.", "quantifier": "all positive nu, all x", "why_tests_cant": "Integral over the reals.", "anchors": ["measures-distributions/src/distributions/continuous/student_t.rs: log_pdf, log_density_wrt_root"]}
{"id": "C16", "title": "Bernoulli: probability mass function", "statement": "For accepted p, exp(log-density) is p at 1, 1-p at 0, 0 at every other u8, and sums to 1 over all outcomes.", "quantifier": "all p in [0,1], all outcomes", "why_tests_cant": "All real p.", "anchors": ["measures-distributions/src/distributions/discrete/bernoulli.rs: new, log_density_wrt_root"]}
{"id": "C17", "title": "Geometric: probability mass function", "statement": "For accepted p, exp(log-density) is (1-p)^(k-1) p for k>=1, 0 at 0, and sums to 1 over all k.", "quantifier": "all p in (0,1], all k", "why_tests_cant": "Infinite sum.", "anchors": ["measures-distributions/src/distributions/discrete/geometric.rs: new, log_density_wrt_root"]}
{"id": "C18", "title": "Poisson: probability mass function", "statement": "For accepted lambda, exp(log-density) at k is lambda^k e^-lambda / k!, and sums to 1 over all k.", "quantifier": "all positive lambda, all k", "why_tests_cant": "Infinite sum, unbounded loop for ln k!.", "anchors": ["measures-distributions/src/distributions/discrete/poisson.rs: new, log_density_wrt_root"]}
{"id": "C19", "title": "Categorical: probability mass function", "statement": "For an accepted probability vector, exp(log-density) at i is probs[i] for i < len and 0 beyond, and the total is within 1e-10 of 1.", "quantifier": "all accepted probability vectors (any length), all indices", "why_tests_cant": "Vectors of any length.", "anchors": ["measures-distributions/src/distributions/discrete/categorical.rs: new, log_density_wrt_root"]}
{"id": "C20", "title": "Binomial: probability mass function", "statement": "For accepted n and p, exp(log-density w.r.t. counting measure) at k is C(n,k) p^k (1-p)^(n-k) and sums to 1 over k.", "quantifier": "all n, p, k", "why_tests_cant": "All n.", "anchors": ["measures-distributions/src/distributions/discrete/binomial.rs: log_density_wrt_root, natural_and_log_partition, base_measure"]}
{"id": "C21", "title": "Negative binomial: probability mass function", "statement": "For accepted r and p, exp(log-density w.r.t. counting measure) sums to 1 over all k, and the log-density and exponential-family evaluations agree.", "quantifier": "all r, p, k", "why_tests_cant": "Infinite sum.", "anchors": ["measures-distributions/src/distributions/discrete/negative_binomial.rs"]}
{"id": "C22", "title": "Constructors accept exactly the valid parameters", "statement": "Every distribution constructor returns a distribution carrying exactly the given parameters when they satisfy the documented constraint and panics otherwise (NaN parameters are rejected).", "quantifier": "all parameter values including infinities and NaN", "why_tests_cant": "All floating-point values.", "anchors": ["measures-distributions/src/distributions/continuous/*.rs: new", "measures-distributions/src/distributions/discrete/*.rs: new"]}
{"id": "C23", "title": "Support agrees with density", "statement": "Off `in_support` the log-density is -inf; on `in_support` it is a finite number (for parameters strictly inside the domain).", "quantifier": "all distributions, parameters and points", "why_tests_cant": "All points.", "anchors": ["measures-distributions/src/distributions/continuous/*.rs: in_support, log_density_wrt_root", "measures-distributions/src/distributions/discrete/*.rs: in_support, log_density_wrt_root"]}
{"id": "C24", "title": "Exponential-family form agrees with the log-density", "statement": "eta·T(x) - A(eta) + log h(x) equals the distribution's log-density for every x in the support.", "quantifier": "all exponential-family distributions, parameters, and x in support", "why_tests_cant": "All real parameters and points.", "anchors": ["measures-exponential-family/src/exponential_family/traits.rs: ExponentialFamily::exp_fam_log_density", "measures-distributions/src/distributions/continuous/*.rs: natural_and_log_partition, sufficient_statistic, base_measure", "measures-distributions/src/distributions/discrete/*.rs"]}
{"id": "C25", "title": "Natural-parameter round trip", "statement": "`from_natural(to_natural(d))` has the parameters of d.", "quantifier": "all exponential-family distributions and parameters", "why_tests_cant": "All real parameters.", "anchors": ["measures-distributions/src/distributions/continuous/*.rs: from_natural, natural_and_log_partition", "measures-distributions/src/distributions/discrete/*.rs: from_natural, natural_and_log_partition"]}
{"id": "C26", "title": "The log-partition function normalises the family", "statement": "A(eta) is the logarithm of the integral (or sum) of h(x) exp(eta·T(x)).", "quantifier": "all exponential-family distributions and parameters", "why_tests_cant": "An integral or infinite sum for all parameters.", "anchors": ["measures-distributions/src/distributions/continuous/*.rs: natural_and_log_partition", "measures-distributions/src/distributions/discrete/*.rs: natural_and_log_partition"]}
{"id": "C27", "title": "Reported moments are the moments of the reported density", "statement": "`mean()` and `variance()` equal the mean and variance computed from exp(log-density).", "quantifier": "all distributions with mean/variance, all parameters", "why_tests_cant": "Integrals and infinite sums.", "anchors": ["measures-distributions/src/distributions/continuous/gamma.rs: mean, variance", "measures-distributions/src/distributions/continuous/beta.rs: mean, variance", "measures-distributions/src/distributions/continuous/chi_squared.rs", "measures-distributions/src/distributions/continuous/exponential.rs", "measures-distributions/src/distributions/discrete/*.rs: mean, variance"]}
{"id": "C28", "title": "IID log-density is the sum of the individual log-densities", "statement": "`d.iid().iid_log_density(xs)` (and `.log_density().at(xs)`) equals the sum over xs of the exponential-family log-density of d; it is 0 on the empty sample, additive under concatenation and invariant under permutation.", "quantifier": "all exponential families, all sample lists", "why_tests_cant": "Lists of any length.", "anchors": ["measures-exponential-family/src/exponential_family/traits.rs: compute_iid_exp_fam_log_density, sum_sufficient_stats", "measures-exponential-family/src/exponential_family/iid.rs: iid_log_density, iid_log_density_fallback, HasLogDensity for IID"]}
{"id": "C29", "title": "IID support is pointwise and its base measure is the product", "statement": "A sample list is in the support of `d.iid()` iff every element is in the support of d, and the IID base measure's log-density is the sum of the base log-densities.", "quantifier": "all distributions and sample lists", "why_tests_cant": "Lists of any length.", "anchors": ["measures-exponential-family/src/exponential_family/iid.rs: in_support, IIDBaseMeasure"]}
{"id": "C30", "title": "Sufficient-statistic sums and dot products are linear", "statement": "Summing sufficient statistics is componentwise, order independent, and the dot product distributes over it.", "quantifier": "all lists of statistics of any dimension", "why_tests_cant": "Any dimension and list length.", "anchors": ["measures-exponential-family/src/exponential_family/traits.rs: sum_sufficient_stats", "measures-exponential-family/src/exponential_family/array_utils.rs: add_arrays, sum_arrays", "measures-core/src/traits/dot_product.rs"]}
{"id": "C31", "title": "Zero-overhead generated closures agree with direct evaluation", "statement": "The closures returned by `zero_overhead_optimize`, `zero_overhead_optimize_wrt` and the static inline compiler return, at every x, the log-density (relative log-density) evaluated directly.", "quantifier": "all distributions, parameters and x", "why_tests_cant": "All inputs.", "anchors": ["measures-exponential-family/src/exponential_family/jit.rs: generate_zero_overhead_exp_fam, generate_zero_overhead_exp_fam_wrt, StaticInlineJITCompiler::compile_normal, compile_exponential"]}
{"id": "C32", "title": "Product measure: densities add, supports intersect, mass multiplies", "statement": "The product's log-density at (x,y) is the sum of the factors', its support the conjunction, for any nesting, and its total mass is the product of the factors' masses.", "quantifier": "all factor measures, any nesting depth, all points", "why_tests_cant": "Any nesting.", "anchors": ["measures-combinators/src/measures/combinators/product.rs"]}
{"id": "C33", "title": "Pushforward obeys the change-of-variables formula", "statement": "For the shipped log, exp, linear and logit transforms, forward and inverse are mutually inverse, the Jacobian term is ln|d inverse/dy|, and the pushforward density integrates over the image to the mass of the base.", "quantifier": "all base measures, all points, all nonzero linear coefficients", "why_tests_cant": "Integral identity for every base density.", "anchors": ["measures-combinators/src/measures/combinators/pushforward.rs: log_density_wrt_root, transforms"]}
{"id": "C34", "title": "Mixture density is the weighted sum of densities", "statement": "exp of the mixture's log-density is the sum of weight_i * exp(log-density_i); it is -inf exactly when every term vanishes.", "quantifier": "all component lists and weight vectors of any length, all points", "why_tests_cant": "Lists of any length.", "anchors": ["measures-combinators/src/measures/combinators/superposition.rs: log_density_wrt_root, log_sum_exp"]}
{"id": "C35", "title": "log-sum-exp never exponentiates a positive number and is bounded by max and max + ln n", "statement": "In mixture evaluation every argument passed to exp is <= 0, and the result lies between the largest term and that plus ln of the number of terms; it is permutation invariant and commutes with adding a constant.", "quantifier": "all lists of finite or minus-infinite values (what logarithms of nonnegative terms can be)", "why_tests_cant": "Lists of any length.", "anchors": ["measures-combinators/src/measures/combinators/superposition.rs: log_sum_exp"]}
{"id": "C36", "title": "Mixture constructors validate and normalise", "statement": "`MixtureMeasure::new` succeeds iff lengths agree and the weights sum to 1 within 1e-10; `uniform` and `mixture` produce weights summing to one; in_support is true iff some positively weighted component contains the point.", "quantifier": "all component lists and weights", "why_tests_cant": "Lists of any length.", "anchors": ["measures-combinators/src/measures/combinators/superposition.rs: new, uniform, mixture, in_support"]}
{"id": "C37", "title": "Transformation Jacobians are correct", "statement": "`log_abs_det_jacobian` of the linear and componentwise transforms equals ln|det| of the transform.", "quantifier": "all matrices and points", "why_tests_cant": "All matrices.", "anchors": ["measures-combinators/src/measures/combinators/transform.rs"]}
{"id": "C38", "title": "log_factorial is accurate for every k", "statement": "|log_factorial(k) - ln k!| <= 1e-10 for every k, over the table and the Stirling series.", "quantifier": "all natural numbers k", "why_tests_cant": "All k.", "anchors": ["measures-combinators/src/measures/derived/factorial.rs: LOG_FACTORIAL_TABLE, log_factorial, stirling_log_factorial"]}
{"id": "C39", "title": "Binomial and negative-binomial coefficient measures", "statement": "log_binomial_coefficient(n,k) = ln C(n,k) for k<=n and -inf otherwise; it is symmetric; the negative-binomial coefficient is ln C(x+r-1, x).", "quantifier": "all n, k, r, x", "why_tests_cant": "All naturals.", "anchors": ["measures-combinators/src/measures/derived/binomial_coefficient.rs", "measures-combinators/src/measures/derived/negative_binomial_coefficient.rs"]}
{"id": "C40", "title": "Weighted and integral measures add their log-weights; Dirac and primitives are trivial", "statement": "A weighted measure's log-density is log_weight + base; an integral measure's is f(x)+base; nested weights add; primitive measures have log-density 0 everywhere; a Dirac measure's support is exactly its point.", "quantifier": "all base measures, weights, functions, points", "why_tests_cant": "All inputs.", "anchors": ["measures-combinators/src/measures/derived/weighted.rs", "measures-combinators/src/measures/derived/integral.rs", "measures-combinators/src/measures/derived/dirac.rs", "measures-core/src/primitive/*.rs"]}
{"id": "C41", "title": "Expression evaluation computes the mathematical value", "statement": "Whenever the expression has a mathematical value at the given assignment (no division by zero, logarithm of a nonpositive, root of a negative), `evaluate` returns it; the 0*e and 1*e fast paths do not change it.", "quantifier": "all expressions (any depth), all assignments", "why_tests_cant": "Expressions of any depth.", "anchors": ["symbolic-math/src/expr.rs: Expr::evaluate"]}
{"id": "C42", "title": "Evaluation depends only on the variables that occur", "statement": "Two assignments that agree on `variables()` give the same `evaluate` result; `variables()` is sorted, duplicate free and lists exactly the names that occur.", "quantifier": "all expressions and assignments", "why_tests_cant": "Expressions of any depth.", "anchors": ["symbolic-math/src/expr.rs: evaluate, variables, collect_variables"]}
{"id": "C43", "title": "Single-variable evaluation agrees with map evaluation", "statement": "`evaluate_single_var(v, x)` succeeds with value r implies `evaluate({v: x})` returns r; conversely except where a literal zero factor hides an error.", "quantifier": "all expressions, names, values", "why_tests_cant": "Expressions of any depth.", "anchors": ["symbolic-math/src/expr.rs: evaluate_single_var, evaluate"]}
{"id": "C44", "title": "Linear, polynomial and smart evaluation agree with plain evaluation", "statement": "Whenever `evaluate_linear` or `evaluate_polynomial` returns a value it is the value of the expression; `evaluate_smart` returns the value of the expression whenever plain evaluation does.", "quantifier": "all expressions, names, values", "why_tests_cant": "Expressions of any depth.", "anchors": ["symbolic-math/src/expr.rs: extract_linear_coefficients, evaluate_linear, evaluate_polynomial, evaluate_smart"]}
{"id": "C45", "title": "Batch and grid evaluation are pointwise and fail iff a point fails", "statement": "`evaluate_batch`, `evaluate_batch_vars` and `evaluate_grid` return entry-by-entry what `evaluate` returns, in order and shape, or the error of the first failing point.", "quantifier": "all expressions, all input lists", "why_tests_cant": "Lists of any length.", "anchors": ["symbolic-math/src/expr.rs: evaluate_batch, evaluate_batch_vars, evaluate_grid"]}
{"id": "C46", "title": "Optimised batch evaluation agrees with batch evaluation", "statement": "`evaluate_batch_optimized(v, xs)` returns what `evaluate_batch(v, xs)` returns.", "quantifier": "all expressions, names, lists", "why_tests_cant": "All expressions.", "anchors": ["symbolic-math/src/expr.rs: evaluate_batch_optimized, evaluate_batch"]}
{"id": "C47", "title": "Simplification preserves value", "statement": "If `e` evaluates to a number then `e.simplify()` evaluates to the same number.", "quantifier": "all expressions, all assignments", "why_tests_cant": "Expressions of any depth and all assignments.", "anchors": ["symbolic-math/src/expr.rs: simplify"]}
{"id": "C48", "title": "Simplification terminates, never grows the expression and never introduces variables", "statement": "`complexity(e.simplify()) <= complexity(e)` and `variables(e.simplify())` is a subset of `variables(e)`.", "quantifier": "all expressions", "why_tests_cant": "Expressions of any depth.", "anchors": ["symbolic-math/src/expr.rs: simplify, complexity, variables"]}
{"id": "C49", "title": "Simplification is idempotent", "statement": "Simplifying a simplified expression changes nothing.", "quantifier": "all expressions", "why_tests_cant": "Expressions of any depth.", "anchors": ["symbolic-math/src/expr.rs: simplify"]}
{"id": "C50", "title": "Cached simplification is transparent under any history and interleaving", "statement": "`simplify_cached` returns what `simplify` returns, for every history of cached calls and cache clears, from any number of threads interleaved at the lock operations.", "quantifier": "all histories, all thread interleavings, all expressions over identifier variable names", "why_tests_cant": "Schedules and histories.", "anchors": ["symbolic-math/src/expr.rs: simplify_cached, SIMPLIFICATION_CACHE, clear_caches, Display for Expr"]}
{"id": "C51", "title": "Cached evaluation is transparent under any history and interleaving", "statement": "`evaluate_cached` returns what `evaluate` returns (errors are never cached), for every history and interleaving.", "quantifier": "all histories and interleavings", "why_tests_cant": "Schedules and histories.", "anchors": ["symbolic-math/src/expr.rs: evaluate_cached, EVALUATION_CACHE"]}
{"id": "C52", "title": "Cache statistics count every call exactly once", "statement": "After any history without clears, hits + misses equals the number of completed cached calls; the hit rate lies in [0,1].", "quantifier": "all histories", "why_tests_cant": "Histories of any length.", "anchors": ["symbolic-math/src/expr.rs: CacheStats, simplification_hit_rate, evaluation_hit_rate, get_cache_stats"]}
{"id": "C53", "title": "Parameter substitution commutes with evaluation", "statement": "Evaluating a `SymbolicLogDensity` after `substitute_parameters` equals evaluating before it, for assignments not naming a parameter; the substituted expression has no parameter left.", "quantifier": "all expressions, parameters, assignments", "why_tests_cant": "Expressions of any depth.", "anchors": ["symbolic-math/src/expr.rs: SymbolicLogDensity::evaluate, evaluate_single, substitute_parameters"]}
{"id": "C54", "title": "The text form of an expression determines the expression", "statement": "Two expressions over identifier names with the same Display text are equal (so the text is a valid cache key); likewise the Python text.", "quantifier": "all pairs of expressions", "why_tests_cant": "All pairs of expressions.", "anchors": ["symbolic-math/src/expr.rs: Display for Expr, to_python, to_latex"]}
{"id": "C55", "title": "Expression builders denote the documented formulas", "statement": "normal_log_pdf, polynomial, gaussian_kernel, logistic, softplus, quadratic_term, linear_term and log_normal_constant evaluate to the documented formula.", "quantifier": "all parameter values, all coefficient lists, all points", "why_tests_cant": "Lists of any length and all reals.", "anchors": ["symbolic-math/src/lib.rs: builders", "symbolic-math/src/expr.rs: builders"]}
{"id": "C56", "title": "Every e-graph rewrite rule is an identity", "statement": "Each rewrite rule given to egglog replaces an expression by one with the same value, and `optimize` returns an expression with the same value as its input, in any sequence of calls on one optimizer.", "quantifier": "all rules, all values of their pattern variables, all expressions, all engines that perform equality saturation, all sequences of calls", "why_tests_cant": "All reals.", "anchors": ["symbolic-math/src/optimization.rs: EgglogOptimizer::new rules"]}
{"id": "C57", "title": "The egglog text round trip preserves the expression", "statement": "Parsing the text produced for an expression returns that expression.", "quantifier": "all expressions", "why_tests_cant": "Expressions of any depth.", "anchors": ["symbolic-math/src/optimization.rs: expr_to_egglog, egglog_to_expr, parse_binary_args"]}
{"id": "C58", "title": "Optimisation is total and falls back to the original", "statement": "`optimize` always returns an expression; if extraction or parsing fails, the input itself.", "quantifier": "all expressions and all engine answers", "why_tests_cant": "All engine behaviours.", "anchors": ["symbolic-math/src/optimization.rs: optimize"]}
{"id": "C59", "title": "Generated code computes the expression", "statement": "The instruction sequence emitted for an expression is well formed (every operand defined before use), returns the expression's value with ln/exp/sin/cos replaced by the shipped approximations, and fails with an error exactly when the expression mentions an unknown variable.", "quantifier": "all expressions, variable lists, constant tables and arguments", "why_tests_cant": "Expressions of any depth.", "anchors": ["symbolic-math/src/jit.rs: compile_expression, generate_clif_from_expr_with_vars"]}
{"id": "C60", "title": "Inline exp is accurate over its range", "statement": "In exact arithmetic the compiled exp has relative error below 1e-11 for every argument whose binary exponent floor(x/ln 2) is between -1021 and 1023 (all x from -707 to 709).", "quantifier": "all arguments in range", "why_tests_cant": "All reals in the range.", "anchors": ["symbolic-math/src/jit.rs: generate_exp_call, compile_expression"]}
{"id": "C61", "title": "Inline ln is accurate over all positive normal numbers", "statement": "In exact arithmetic the compiled ln has absolute error below 1e-11 for every positive normal double; the bit manipulation splits x into 2^k * m with 1 <= m < 2.", "quantifier": "all 64-bit patterns of positive normal doubles", "why_tests_cant": "2^62 bit patterns.", "anchors": ["symbolic-math/src/jit.rs: generate_accurate_ln_call"]}
{"id": "C62", "title": "Inline sin and cos error bounds", "statement": "The generated sin/cos differ from the functions by at most the truncation and coefficient error, and are unbounded for large arguments.", "quantifier": "all real arguments", "why_tests_cant": "All reals.", "anchors": ["symbolic-math/src/jit.rs: generate_sin_call, generate_cos_call"]}
{"id": "C63", "title": "Compiled functions are called with the arity they were compiled with", "statement": "The signature recorded by the compiler matches the number of machine parameters, and each call method either passes exactly that many or panics.", "quantifier": "all variable-list lengths and call methods", "why_tests_cant": "All lengths.", "anchors": ["symbolic-math/src/jit.rs: compile_expression, call_single, call_data_param, call_data_params, call_batch"]}
{"id": "C64", "title": "Custom log-density compilation binds the data variable", "statement": "`compile_custom_expression` compiles x ↦ expression(parameters, x).", "quantifier": "all expressions and parameter tables", "why_tests_cant": "All expressions.", "anchors": ["symbolic-math/src/jit.rs: compile_custom_expression, generate_custom_log_density, CustomSymbolicLogDensity::new"]}
{"id": "C65", "title": "Interpreters of a final-tagless program agree", "statement": "For every final-tagless program, direct evaluation, and evaluation of the JIT representation's generated code with exact functions, give the same value; the statistical helpers (logistic, softplus, sigmoid) denote their formulas.", "quantifier": "all programs and inputs", "why_tests_cant": "Programs of any size.", "anchors": ["symbolic-math/src/final_tagless.rs: MathExpr, DirectEval, JITEval, JITRepr, StatisticalExpr"]}
{"id": "C66", "title": "Tagless exponential-family helpers denote the formulas", "statement": "dot_product, sum_sufficient_stats, exp_fam_log_density, iid_exp_fam_log_density and log_sum_exp compute the documented sums for vectors of every length and panic exactly on length mismatch.", "quantifier": "all vectors", "why_tests_cant": "Vectors of any length.", "anchors": ["measures-exponential-family/src/exponential_family/final_tagless.rs: ExponentialFamilyExpr"]}
{"id": "C67", "title": "Tagless distribution patterns are the log-densities", "statement": "normal, standard_normal, exponential, cauchy, gamma, beta, student_t and poisson patterns evaluate to the log-density of the distribution.", "quantifier": "all parameters and points", "why_tests_cant": "All reals.", "anchors": ["measures-exponential-family/src/exponential_family/final_tagless.rs: patterns", "measures-distributions/src/distributions/final_tagless.rs: patterns, DistributionEval"]}
{"id": "C68", "title": "Horner evaluation is polynomial evaluation", "statement": "`horner(cs, x)` = Σ cs[i] x^i for every coefficient list; the expression variant agrees.", "quantifier": "all coefficient lists and points", "why_tests_cant": "Lists of any length.", "anchors": ["mathjit/src/final_tagless.rs: polynomial::horner, horner_expr"]}
{"id": "C69", "title": "Horner derivative is the derivative", "statement": "`horner_derivative(cs, x)` is the derivative at x of `horner(cs, ·)`.", "quantifier": "all coefficient lists and points", "why_tests_cant": "Lists of any length.", "anchors": ["mathjit/src/final_tagless.rs: polynomial::horner_derivative"]}
{"id": "C70", "title": "from_roots vanishes exactly at the roots", "statement": "`from_roots(rs, x)` = Π (x - rs[i]) and is zero iff x is one of the roots.", "quantifier": "all root lists and points", "why_tests_cant": "Lists of any length.", "anchors": ["mathjit/src/final_tagless.rs: polynomial::from_roots"]}
{"id": "C71", "title": "Symbolic Normal likelihood, prior and posterior denote log-densities", "statement": "normal_likelihood and normal_prior evaluate to the Gaussian log-density, and posterior_log_density to the sum of its parts.", "quantifier": "all values of the variables", "why_tests_cant": "All reals.", "anchors": ["measures-bayesian/src/bayesian/mod.rs: expressions::normal_likelihood, normal_prior, posterior_log_density"]}
{"id": "C72", "title": "Symbolic mixture likelihood denotes the mixture", "statement": "mixture_likelihood evaluates to ln Σ w_i exp(l_i) for any number of components and panics iff the lengths differ.", "quantifier": "all lists of components and weights", "why_tests_cant": "Lists of any length.", "anchors": ["measures-bayesian/src/bayesian/mod.rs: mixture_likelihood"]}
{"id": "C73", "title": "Hierarchical model expression", "statement": "hierarchical_normal evaluates to likelihood + prior of mu + prior of tau as documented.", "quantifier": "all values of the variables", "why_tests_cant": "All reals.", "anchors": ["measures-bayesian/src/bayesian/mod.rs: hierarchical_normal"]}
{"id": "C74", "title": "Optimiser slots", "statement": "A BayesianJITOptimizer evaluates only functions that were compiled; before compilation it returns None, and the last compilation wins.", "quantifier": "all operation histories", "why_tests_cant": "Histories.", "anchors": ["measures-bayesian/src/bayesian/mod.rs: BayesianJITOptimizer"]}
{"id": "C75", "title": "Automatic JIT registry", "statement": "`auto_jit` on a distribution type produces a function or an error; registering a pattern makes it available and the last registration wins.", "quantifier": "all registry histories and types", "why_tests_cant": "Histories.", "anchors": ["measures-exponential-family/src/exponential_family/auto_jit.rs"]}
{"id": "C76", "title": "Numeric conversions are value preserving", "statement": "`safe_convert`, `safe_convert_or`, `safe_float_convert` and `float_constant` return the converted value whenever it is representable and the documented fallback otherwise, and never panic.", "quantifier": "all inputs", "why_tests_cant": "All inputs.", "anchors": ["measures-core/src/core/utils.rs"]}
{"id": "C77", "title": "Cached calls never block each other forever", "statement": "However cached simplification, cached evaluation, statistics and clear calls from any number of threads interleave, each cache is used by one thread at a time, some unfinished call can always make progress, and every call returns after a bounded number of steps.", "quantifier": "all numbers of threads, all sequences of calls, all schedules", "why_tests_cant": "A deadlock needs a particular interleaving of lock acquisitions.", "anchors": ["symbolic-math/src/expr.rs: simplify_cached, evaluate_cached, get_cache_stats, clear_caches"]}
{"id": "C78", "title": "Python text means the expression", "statement": "Reading the text from `to_python` with Python's operator precedences gives back the same tree up to function names.", "quantifier": "all expressions", "why_tests_cant": "Infinitely many nestings of operators.", "anchors": ["symbolic-math/src/expr.rs: to_python"]}
{"id": "C79", "title": "Operator overloads and fluent methods of expressions", "statement": "`+ - * /`, unary minus, mixed operations with f64/i32/names, and the fluent methods (`pow`, `natural_log`, `exponential`, `square_root`, `square`, `cube`, `abs`) build expressions whose value is the corresponding function of the operands' values wherever that function is defined.", "quantifier": "all operand expressions and variable values", "why_tests_cant": "Infinitely many operand trees.", "anchors": ["symbolic-math/src/expr.rs: impl Add/Sub/Mul/Div/Neg for Expr, From impls, fluent methods"]}
{"id": "C80", "title": "Static inline functions are the log-densities", "statement": "The functions returned by `StaticInlineJITCompiler::compile_normal(mu, sigma)` and `compile_exponential(lambda)` equal the library's Normal and Exponential log-densities at every point, and their exponentials are the probability densities.", "quantifier": "all valid parameters and all points", "why_tests_cant": "All reals.", "anchors": ["measures-exponential-family/src/exponential_family/jit.rs: StaticInlineJITCompiler::compile_normal, compile_exponential, StaticInlineJITFunction::call"]}
{"id": "C81", "title": "Final-tagless compile entry points bind names to positions", "statement": "A function from `JITEval::compile` (automatic signature) can be called and evaluates the recorded computation with arguments in an order the user can know; the explicit entry points (`compile_single_var`, `compile_data_param`) bind the named variables to the arguments in order.", "quantifier": "all recorded computations, all orders in which the variable set may be iterated, all arguments", "why_tests_cant": "The iteration order of a hash set varies between runs.", "anchors": ["symbolic-math/src/final_tagless.rs: JITEval::compile, compile_single_var, compile_data_param"]}
{"id": "C82", "title": "The specialised interpreters agree with direct evaluation", "statement": "Every generic (final-tagless) program gives the same number under `DistributionEval`, `ExpFamEval` and `DirectEval` when its variables are passed as values; taking a variable from the trait (`E::var(name)`) panics in the first two, and only then.", "quantifier": "all generic programs, all variable values, all number types", "why_tests_cant": "A test runs a few programs; the claim is about every program.", "anchors": ["measures-distributions/src/distributions/final_tagless.rs: impl MathExpr for DistributionEval", "measures-exponential-family/src/exponential_family/final_tagless.rs: impl MathExpr for ExpFamEval"]}
{"id": "C83", "title": "Distribution functions of an interpreter return the quantity they are named after", "statement": "`survival` is one minus `cdf`, `log_cdf` and `log_survival` are the logarithms (minus infinity at probability zero), `beta_function` is Euler's Beta integral, `erfc` is one minus `erf`; `log_density`, `cdf`, `mgf`, moments, `entropy`, `kl_divergence`, `fisher_information` return a value.", "quantifier": "all interpreters, all arguments and parameter slices", "why_tests_cant": "Whether some argument yields a value cannot be settled by samples.", "anchors": ["measures-distributions/src/distributions/final_tagless.rs: DistributionExpr, DistributionMathExpr"]}
{"id": "C84", "title": "value_and_grad returns the value and the derivative of the log-density", "statement": "For a log-density evaluated on a differentiable number type, `value_and_grad(x)` is the pair of the log-density and its derivative at `x`.", "quantifier": "all log-densities, all points, all differentiable number types", "why_tests_cant": "A derivative at every point of every density.", "anchors": ["measures-core/src/core/autodiff.rs: LogDensityAD::value_and_grad"]}
{"id": "C85", "title": "A panic while filling the cache leaves the cached density usable", "statement": "If the wrapped density panics at some points and the caller catches the panic, every call on the cached density still gives what the wrapped density gives at that point, nothing is stored for points that panicked, and the object is not left locked; a wrapped density may use its own cached density.", "quantifier": "all wrapped densities, all histories of calls, all panic points", "why_tests_cant": "All histories and crash points.", "anchors": ["measures-core/src/core/density.rs: CachedLogDensity::at"]}
{"id": "C86", "title": "compile_jit of a distribution returns compiled code for its log-density", "statement": "`compile_jit` on a distribution returns a function that computes its log-density; where it cannot, it returns an error naming the distribution and does not panic.", "quantifier": "all distributions with `compile_jit`, all parameters", "why_tests_cant": "Parameters range over an infinite set.", "anchors": ["measures-distributions/src/distributions: JITOptimizer::compile_jit"]}
{"id": "C87", "title": "The constant pool returns the last definition of each constant and orders constants by dependency", "statement": "After any sequence of `add_constant` calls the pool gives for every name the value, expression and dependencies of the last call; `evaluation_order` lists the constants in topological order.", "quantifier": "all sequences of calls, all names", "why_tests_cant": "All histories.", "anchors": ["symbolic-math/src/expr.rs: ConstantPool::add_constant"]}
{"id": "C88", "title": "Normal and Exponential log-densities are accurate in floating point", "statement": "For every representable mean, positive scale and point, the `f64` or `f32` log-density is a finite number within a small constant number of units of roundoff of the true log-density, relative to the sizes of its terms, or minus infinity where the difference to the mean or the squared score is at the edge of the format's range; never NaN or plus infinity. Off the support the Exponential gives exactly minus infinity.", "quantifier": "all representable parameters and points of binary64 and binary32, all sufficiently accurate mathematical libraries", "why_tests_cant": "There are 2^192 triples of doubles.", "anchors": ["measures-distributions/src/distributions/continuous/normal.rs", "measures-distributions/src/distributions/continuous/exponential.rs"]}
{"id": "C89", "title": "The Cauchy log-density is accurate in floating point", "statement": "For every representable location, positive scale and point, the `f64` or `f32` Cauchy log-density is finite and within a small constant number of units of roundoff of the true value.", "quantifier": "all representable parameters and points of binary64 and binary32, all sufficiently accurate mathematical libraries", "why_tests_cant": "There are 2^192 triples of doubles.", "anchors": ["measures-distributions/src/distributions/continuous/cauchy.rs"]}
{"id": "C90", "title": "The exponential-family path of Normal is accurate in floating point", "statement": "For every representable mean, positive standard deviation and point, the exponential-family log-density of Normal (natural parameters, sufficient statistic, log partition) is as accurate as the direct formula.", "quantifier": "all representable parameters and points of binary64 and binary32, all sufficiently accurate mathematical libraries", "why_tests_cant": "There are 2^192 triples of doubles.", "anchors": ["measures-distributions/src/distributions/continuous/normal.rs: natural_and_log_partition", "measures-exponential-family/src/exponential_family/traits.rs: exp_fam_log_density"]}
{"id": "C91", "title": "Joint log-densities of many samples are accurate in floating point", "statement": "For every non-empty list of representable samples the joint log-density computed in floating point is the sum of the true log-densities up to a relative error growing linearly with the number of samples, and it is only infinite at the edge of the format's range.", "quantifier": "all lists of representable samples of fewer than 1/(1000u) elements, all representable parameters, all sufficiently accurate mathematical libraries", "why_tests_cant": "Rounding errors accumulate differently for every list of samples.", "anchors": ["measures-core/src/core/log_density_decomposition.rs: evaluate_iid", "measures-distributions/src/distributions/continuous/normal.rs: log_density_iid", "measures-exponential-family/src/exponential_family/iid.rs: iid_log_density_fallback"]}
{"id": "C92", "title": "Mixture constructors accept valid weights in floating point", "statement": "In floating point, a uniform mixture of any number of components and a two-component mixture of any two non-negative weights with a positive sum are constructed, with the normalised weights up to a few roundings; and whatever weights are accepted are finite and sum to one within the tolerance.", "quantifier": "all numbers of components, all representable non-negative weights of both formats", "why_tests_cant": "The rounded sum of weights depends on every component count and weight pair.", "anchors": ["measures-combinators/src/measures/combinators/superposition.rs: MixtureMeasure::new, MixtureMeasure::uniform, MixtureExt::mixture"]}
{"id": "C93", "title": "Mixture log-densities never overflow or vanish in floating point", "statement": "The log-density of a mixture computed in floating point is a finite number close to the logarithm of the weighted sum of the component densities, for log-densities of any size, including where the densities themselves are too small or too large for the format.", "quantifier": "all lists of representable or minus-infinite component log-densities with at least one finite, all positive weights, all sufficiently accurate mathematical libraries", "why_tests_cant": "The exponent range makes the space of component log-densities astronomically large; overflow appears only at extremes.", "anchors": ["measures-combinators/src/measures/combinators/superposition.rs: log_sum_exp, MixtureMeasure::log_density_wrt_root"]}
{"id": "C94", "title": "Expression evaluation is accurate in floating point", "statement": "Evaluating an expression of constants, bound variables, additions, subtractions, multiplications and negations gives, whenever the parts stay inside the format's range, a finite number whose error is bounded by the number of operations times the unit roundoff relative to the size of the expression; the single-variable evaluator and the linear and polynomial shortcuts of `evaluate_smart` obey the same bound, and simplification does not change what is computed beyond rounding.", "quantifier": "all expressions of every size and shape, all representable values of the variables, both formats", "why_tests_cant": "Expressions form an infinite tree language and each variable has 2^64 values.", "anchors": ["symbolic-math/src/expr.rs: Expr::evaluate, evaluate_single_var, evaluate_linear, evaluate_polynomial, evaluate_smart, simplify"]}
{"id": "C95", "title": "The polynomial, inner-product and log-sum-exp helpers are accurate in floating point", "statement": "Horner evaluation, inner products, `logistic`, `softplus` and `log_sum_exp` evaluated directly in floating point are within a small number of roundoffs of their exact values for every finite argument, and the distribution patterns compute the log-densities of the distributions.", "quantifier": "all coefficient lists and vectors of every length, all representable arguments, both formats, all sufficiently accurate mathematical libraries", "why_tests_cant": "Unbounded vectors of doubles.", "anchors": ["mathjit/src/final_tagless.rs: horner, horner_expr", "measures-exponential-family/src/exponential_family/final_tagless.rs: dot_product, logistic, softplus, log_sum_exp"]}
{"id": "C96", "title": "The functions of compiled code are accurate in double precision", "statement": "The `ln`, `exp`, `sin`, `cos` and variable powers of JIT-compiled functions, computed with double-precision arithmetic including the rounding of every instruction, are within a stated small error of the mathematical functions for every double at which the value of the function is a normal double; no argument stops the process.", "quantifier": "all doubles in the ranges, all mathematical libraries, all faithful bit conversions", "why_tests_cant": "Each function has 2^64 arguments, a power 2^128.", "anchors": ["symbolic-math/src/jit.rs: generate_accurate_ln_call, generate_exp_call, compile_expression"]}
{"id": "C97", "title": "Roots are reference measures, and the log-density without a base is the one with respect to the root", "statement": "The root measure of every distribution has log-density zero and contains every point; wrapping a measure (weight, integral, exponential-family marker, product, push-forward, independent samples, mixture) keeps or combines root and support as documented; `log_density().at(x)` without `wrt` is the log-density with respect to the root.", "quantifier": "all distributions, all measures under a wrapper, all points and values including infinite and NaN", "why_tests_cant": "Wrappers nest without bound and points are real numbers.", "anchors": ["measures-core/src/core/types.rs", "measures-core/src/primitive/lebesgue.rs", "measures-core/src/primitive/counting.rs", "measures-core/src/core/density.rs: LogDensity::new, at", "measures-combinators/src/measures/combinators"]}
{"id": "C98", "title": "The joint log-density with respect to a shared root is the sum", "statement": "`log_density_wrt_shared_root` of a pair of measures with the same root is the sum of their log-densities, hence the logarithm of the product of the densities, independent of the order of the pair.", "quantifier": "all pairs of measures, all points", "why_tests_cant": "Every pair of measures and every point.", "anchors": ["measures-core/src/core/density.rs: SharedRootMeasure::log_density_wrt_shared_root"]}
{"id": "C99", "title": "Compilation statistics describe the compiled function", "statement": "`CompilationStats` returned with a compiled function gives the number of generated instructions, the number of constants embedded in the code and a speed-up estimate that grows with the expression; the generated code grows at most linearly with the expression.", "quantifier": "all expressions, all variable lists and constants", "why_tests_cant": "Expressions form an infinite tree language.", "anchors": ["symbolic-math/src/jit.rs: CompilationStats, estimate_clif_instructions, estimate_speedup", "symbolic-math/src/final_tagless.rs: estimate_complexity", "symbolic-math/src/jit.rs: compile_final_tagless", "symbolic-math/src/expr.rs: complexity"]}
{"id": "C100", "title": "The Gamma, chi-squared, Beta and Student-t log-densities are accurate in floating point", "statement": "The log-densities of the Gamma, chi-squared, Beta and Student-t distributions computed in floating point are finite numbers within a small number of roundoffs of the logarithm of the textbook density, relative to the sizes of the terms of the formula, at every representable point of the support, and exactly minus infinity outside the support; they are never NaN.", "quantifier": "all representable parameters and points, both formats (Student-t: double), all mathematical libraries with sufficiently accurate ln and log-gamma", "why_tests_cant": "Parameters and points range over 2^192 triples of doubles; rounding and cancellation differ at each.", "anchors": ["measures-distributions/src/distributions/continuous/gamma.rs: log_density_wrt_root", "measures-distributions/src/distributions/continuous/chi_squared.rs: log_density_wrt_root", "measures-distributions/src/distributions/continuous/beta.rs: log_density_wrt_root", "measures-distributions/src/distributions/continuous/student_t.rs: log_pdf"]}
{"id": "C101", "title": "The log-masses of the discrete distributions are accurate in floating point", "statement": "The log-masses of the Bernoulli, categorical, geometric, binomial, negative binomial and Poisson distributions and the log-factorial computed in floating point are finite numbers within a small number of roundoffs of the logarithm of the textbook mass, relative to the sizes of the terms of the formula, at every outcome of positive mass, and exactly minus infinity at impossible outcomes.", "quantifier": "all representable parameters and all counts, both formats (log-factorial and coefficients: double), all mathematical libraries with sufficiently accurate ln and log-gamma", "why_tests_cant": "Parameters and counts are unbounded; rounding differs at each, and the Poisson log-factorial accumulates one error per unit of the count.", "anchors": ["measures-distributions/src/distributions/discrete/bernoulli.rs: log_density_wrt_root", "measures-distributions/src/distributions/discrete/categorical.rs: log_density_wrt_root", "measures-distributions/src/distributions/discrete/geometric.rs: log_density_wrt_root", "measures-distributions/src/distributions/discrete/binomial.rs: log_density_wrt_root", "measures-distributions/src/distributions/discrete/negative_binomial.rs: log_density_wrt_root", "measures-distributions/src/distributions/discrete/poisson.rs: log_density_wrt_root", "measures-combinators/src/measures/derived/factorial.rs: log_factorial"]}
{"id": "C102", "title": "Distributions built from natural parameters in floating point have the right parameters", "statement": "`from_natural` evaluated in floating point accepts every natural parameter in the family's range and returns a distribution whose parameters are within a few roundoffs of the exact ones (softmax, logistic, exponential, variance inversion), and rejects parameters outside the range; `Categorical::uniform` works for every number of categories, and every accepted probability vector is non-negative and sums to one within the tolerance.", "quantifier": "all lists of representable natural parameters, both formats, all mathematical libraries with sufficiently accurate exp and sqrt", "why_tests_cant": "Vectors of doubles of any length; whether the rounded probabilities pass the sum test depends on each.", "anchors": ["measures-distributions/src/distributions/discrete/categorical.rs: from_natural, new, uniform", "measures-distributions/src/distributions/discrete/bernoulli.rs: from_natural", "measures-distributions/src/distributions/discrete/poisson.rs: from_natural", "measures-distributions/src/distributions/discrete/geometric.rs: from_natural", "measures-distributions/src/distributions/continuous/normal.rs: from_natural", "measures-distributions/src/distributions/continuous/gamma.rs: from_natural", "measures-distributions/src/distributions/continuous/beta.rs: from_natural", "measures-distributions/src/distributions/continuous/chi_squared.rs: from_natural", "measures-distributions/src/distributions/continuous/exponential.rs: from_natural"]}
{"id": "C103", "title": "Converting to natural parameters and back keeps the distribution in floating point", "statement": "`from_natural(natural_and_log_partition(d))` evaluated in floating point succeeds for every distribution accepted by the constructor and returns a distribution whose parameters are within a few roundoffs of those of `d`, exactly equal where the conversion only adds and subtracts one.", "quantifier": "all representable parameters, both formats, all mathematical libraries with sufficiently accurate ln, exp and sqrt", "why_tests_cant": "Every distribution has 2^64 or 2^128 parameter values and each rounds differently.", "anchors": ["measures-distributions/src/distributions/continuous/normal.rs: from_natural, natural_and_log_partition", "measures-distributions/src/distributions/continuous/exponential.rs: from_natural, natural_and_log_partition", "measures-distributions/src/distributions/continuous/gamma.rs: from_natural, natural_and_log_partition", "measures-distributions/src/distributions/continuous/beta.rs: from_natural, natural_and_log_partition", "measures-distributions/src/distributions/continuous/chi_squared.rs: from_natural, natural_and_log_partition", "measures-distributions/src/distributions/discrete/bernoulli.rs: from_natural, natural_and_log_partition", "measures-distributions/src/distributions/discrete/poisson.rs: from_natural, natural_and_log_partition", "measures-distributions/src/distributions/discrete/geometric.rs: from_natural, natural_and_log_partition"]}
{"id": "C104", "title": "The multivariate normal distribution is the Gaussian law with the given mean and covariance", "statement": "`MultivariateNormal::new` accepts a mean vector and a covariance matrix exactly when the sizes agree and the matrix is positive definite, and panics otherwise; the log-density through the exponential family is the logarithm of the Gaussian density, which integrates to one and has the given mean and covariance; natural parameters convert back to the same distribution; `standard` and diagonal covariances give independent components.", "quantifier": "all dimensions, all mean vectors and matrices of real numbers, all points", "why_tests_cant": "Matrices of every dimension with real entries.", "anchors": ["measures-distributions/src/distributions/multivariate/multinormal.rs: MultivariateNormal::new, standard, from_natural, to_natural, log_partition, sufficient_statistic, dot"]}
{"id": "C105", "title": "The LaTeX text of an expression means that expression", "statement": "The text returned by `to_latex`, read by the usual conventions of mathematical LaTeX, is a formula with the value of the expression at every assignment, and it is read in one way only.", "quantifier": "all expressions, all names of variables, all literals, all assignments", "why_tests_cant": "Expressions of every size and nesting; a test compares a few texts.", "anchors": ["symbolic-math/src/expr.rs: Expr::to_latex"]}
{"id": "C106", "title": "Bayesian model expressions keep their accuracy in floating point", "statement": "The expressions built by `normal_likelihood`, `normal_prior`, `posterior_log_density` and `mixture_likelihood`, evaluated at doubles, give the logarithm of the density up to a few roundings whenever that logarithm is a moderate number.", "quantifier": "all observations, means, scales, weights and numbers of components; all accurate mathematical libraries", "why_tests_cant": "Rounding, underflow and overflow depend on every combination of operands; tests use a few moderate ones.", "anchors": ["symbolic-math/src/lib.rs: builders::normal_log_pdf", "symbolic-math/src/expr.rs: Expr::evaluate", "measures-bayesian/src/bayesian/mod.rs: normal_likelihood, normal_prior, posterior_log_density, mixture_likelihood"]}
{"id": "C107", "title": "The expr! macro builds the expression that is written", "statement": "`expr!` accepts every formula of ordinary notation built from names, numbers, the five operators, a sign, parentheses and the functions ln, exp, sqrt, sin and cos, and the expression it builds has the value of the formula read with the usual precedence, at every assignment; in particular a formula has one reading only.", "quantifier": "all token sequences, all assignments, all arithmetics", "why_tests_cant": "Formulas of every length and nesting; a test calls the macro on a few.", "anchors": ["symbolic-math/src/lib.rs: expr!"]}
{"id": "C108", "title": "Rounding errors propagate through expressions by the textbook rules", "statement": "Evaluating an expression with any of the operators (sums, products, quotients, powers, logarithm, exponential, square root, sine, cosine, negation) in floating point succeeds, and its error is at most what the rules of error propagation give (the errors of the operands multiplied by the derivatives, plus one rounding per operation), provided no operation overflows and every divisor and every argument of a logarithm, root or power is further from the edge of the domain than its own error; `evaluate_single_var` obeys the same bound.", "quantifier": "all expressions of every size and shape, all representable values of the variables, both formats, all mathematical libraries with at most twice the error of correct rounding", "why_tests_cant": "Expressions form an infinite tree language and each variable has 2^64 values.", "anchors": ["symbolic-math/src/expr.rs: Expr::evaluate, evaluate_single_var"]}
{"id": "C109", "title": "Compiled functions stay close to the exact value of the expression", "statement": "Calling a JIT-compiled expression on doubles returns a number whose distance from the exact value of the expression is bounded by error propagation with the error of the inline approximations (relative about 3e-12 for exp, absolute about 4e-12 for ln, the Taylor remainder for sin and cos) added at every function call, provided no intermediate result overflows and every argument is certainly in the range of its approximation; where the interpreter's conditions hold as well, compiled and interpreted results differ by at most the sum of the two bounds.", "quantifier": "all expressions of every size and shape, all parameter lists and constants, all representable arguments within the stated ranges", "why_tests_cant": "The approximations were fitted on intervals; whether their errors stay bounded when composed over an arbitrary expression and all 2^64 arguments is beyond sampling.", "anchors": ["symbolic-math/src/jit.rs: compile_expression, generate_clif_from_expr_with_vars", "symbolic-math/src/expr.rs: Expr::evaluate"]}
{"id": "C110", "title": "Relative log-densities are accurate, antisymmetric and consistent in floating point", "statement": "`log_density().wrt(base).at(x)` computed in floating point is as accurate as the two log-densities up to one rounding, and exact when they are within a factor two of each other; exchanging measure and base only changes the sign; it is minus infinity where only the measure has density zero, plus infinity where only the base has, and zero for a measure with respect to itself; relative log-densities along a chain of three measures add up within a few roundings.", "quantifier": "all pairs and triples of measures, all points, all values of the log-densities including infinities and NaN, both formats", "why_tests_cant": "Cancellation in a difference of two rounded numbers depends on every pair of values.", "anchors": ["measures-core/src/core/density.rs: LogDensity, wrt, at", "measures-distributions/src/distributions/continuous/normal.rs: log_density_wrt_root"]}
{"id": "C111", "title": "Computed log-densities never prefer the less likely of two points", "statement": "If one point is nearer to the centre of a unimodal distribution than another, its log-density computed in floating point is greater or equal, without any tolerance; likewise for the joint log-density when every sample moves nearer; points at equal distance get exactly equal values.", "quantifier": "all representable parameters, all pairs of points (arbitrarily close), all lists of samples, both formats, all libraries with accurate (for Cauchy and Student: also non-decreasing) logarithm", "why_tests_cant": "Neighbouring doubles differ in the last bit and rounding may reverse their order; there are 2^127 pairs.", "anchors": ["measures-distributions/src/distributions/continuous/normal.rs: log_density_wrt_root, log_density_iid", "measures-distributions/src/distributions/continuous/exponential.rs: log_density_wrt_root", "measures-distributions/src/distributions/continuous/cauchy.rs: log_density_wrt_root, log_density_iid", "measures-distributions/src/distributions/continuous/student_t.rs: log_density_wrt_root", "measures-distributions/src/distributions/discrete/geometric.rs: log_density_wrt_root", "measures-exponential-family/src/exponential_family/traits.rs: exp_fam_log_density"]}
{"id": "C112", "title": "Log-densities at NaN, at infinities and outside the support", "statement": "A point rejected by `in_support` has log-density minus infinity in every arithmetic; NaN is in no support, and the distributions on the whole line map NaN to NaN; at an infinite point the log-density is minus infinity.", "quantifier": "all distributions and parameters, all points including NaN and both infinities", "why_tests_cant": "Each distribution combines the special values in its own formula, and the outcome depends on the parameters (0 times infinity, infinity minus infinity).", "anchors": ["measures-distributions/src/distributions/continuous/normal.rs: log_density_wrt_root", "measures-distributions/src/distributions/continuous/gamma.rs: log_density_wrt_root, in_support", "measures-distributions/src/distributions/continuous/chi_squared.rs: log_density_wrt_root, in_support", "measures-distributions/src/distributions/continuous/exponential.rs: log_density_wrt_root, in_support", "measures-distributions/src/distributions/continuous/beta.rs: log_density_wrt_root, in_support", "measures-distributions/src/distributions/continuous/cauchy.rs: log_density_wrt_root", "measures-distributions/src/distributions/continuous/student_t.rs: log_density_wrt_root"]}
{"id": "C113", "title": "Distributions related in theory return the same log-densities", "statement": "Where two distributions are related by a theorem their log-densities agree: Gamma(1, r) is Exponential(r), ChiSquared(2) is Exponential(1/2), Beta(1, 1) is uniform, Binomial(1, p) and Categorical(1-p, p) are Bernoulli(p), NegativeBinomial(1, p) is Geometric(p) shifted by one; the linear pushforward of a normal, Cauchy, exponential or gamma variable is the member with transformed parameters; exponential of a normal is log-normal, the logit of a uniform is logistic; symmetries, lack of memory and recurrences hold.", "quantifier": "all accepted parameters and all points", "why_tests_cant": "The same number is computed by two independently written formulas over a continuum of parameters and points.", "anchors": ["measures-distributions/src/distributions/continuous/gamma.rs: log_density_wrt_root", "measures-distributions/src/distributions/continuous/exponential.rs: log_density_wrt_root", "measures-distributions/src/distributions/continuous/beta.rs: log_density_wrt_root", "measures-distributions/src/distributions/discrete/binomial.rs: log_density_wrt_root", "measures-distributions/src/distributions/discrete/categorical.rs: log_density_wrt_root", "measures-distributions/src/distributions/discrete/geometric.rs: log_density_wrt_root", "measures-distributions/src/distributions/discrete/negative_binomial.rs: log_density_wrt_root", "measures-combinators/src/measures/combinators/pushforward.rs: log_density_wrt_root"]}
{"id": "C114", "title": "The posterior expression of a normal model is the textbook posterior", "statement": "For a normal prior on the mean and normal likelihoods with known scale, the expression built by adding one likelihood per observation to the prior denotes the logarithm of evidence times the normal density whose precision is the prior precision plus n over the noise variance and whose mean is the precision-weighted average; integrating its exponential over the mean gives the evidence, and dividing by it gives exactly that normal density.", "quantifier": "all prior means and scales, all noise scales, all lists of observations of any length, all variable names", "why_tests_cant": "The claim equates functions of the mean for data of every length; a test sees one value of one expression.", "anchors": ["measures-bayesian/src/bayesian/mod.rs: normal_prior, normal_likelihood, posterior_log_density"]}
{"id": "C115", "title": "The summed statistics are sufficient", "statement": "The joint log-density of independent draws splits into a term that depends on the sample only through its length and the totals of the textbook statistics, and a term that does not depend on the parameters; so likelihood ratios between two members agree on any two samples with the same length and totals.", "quantifier": "all members of each family, all samples of any length in the support", "why_tests_cant": "Samples with equal totals form continuous families; the claim compares all of them under all parameters.", "anchors": ["measures-exponential-family/src/exponential_family/iid.rs: iid_log_density", "measures-exponential-family/src/exponential_family/traits.rs: compute_iid_exp_fam_log_density, sum_sufficient_stats"]}
{"id": "C116", "title": "The joint log-density is largest at the textbook estimate", "statement": "As a function of the parameters the joint log-density of a sample has a unique maximum, at the maximum-likelihood estimate: sample mean (and root mean squared deviation) for the normal, sample mean for the Poisson, observed proportion for Bernoulli and binomial, shape over mean for the gamma rate, one over the mean for exponential and geometric, r/(r+mean) for the negative binomial.", "quantifier": "all nonempty samples of any length in the support (not degenerate), all competing parameters", "why_tests_cant": "A maximum over a continuum of parameters for every sample.", "anchors": ["measures-exponential-family/src/exponential_family/iid.rs: iid_log_density, iid_log_density_fallback", "measures-exponential-family/src/exponential_family/traits.rs: compute_iid_exp_fam_log_density"]}
{"id": "C117", "title": "Products, weights and transformed measures in floating point", "statement": "The log-density of a product is as accurate as its factors up to one rounding, is minus infinity when a factor is, and does not depend on the order of the factors; a log-weight costs one rounding and a zero log-weight nothing; a normal variable pushed through a linear map or through the exponential has a log-density close to that of the transformed normal or log-normal, with an explicit bound that includes the rounding of the preimage; products do not depend on the grouping.", "quantifier": "all component measures, all values including infinities, all representable parameters and points within stated ranges, both formats, all accurate libraries", "why_tests_cant": "Rounding depends on every bit of every input; there is no finite set of representative points.", "anchors": ["measures-combinators/src/measures/combinators/product.rs: log_density_wrt_root", "measures-combinators/src/measures/derived/weighted.rs: log_density_wrt_root", "measures-combinators/src/measures/combinators/pushforward.rs: log_density_wrt_root, linear_transform, exp_transform"]}
{"id": "C118", "title": "Reported means and variances are accurate in floating point", "statement": "The mean and variance methods of the distributions return a number that differs from the exact mean or variance by a small multiple of the rounding error, relative to the exact value.", "quantifier": "all representable parameters the constructors accept, both formats", "why_tests_cant": "Each result goes through several roundings; intermediate over- or underflow depends on the magnitude of the parameters, which no finite set of test points covers.", "anchors": ["measures-distributions/src/distributions/continuous/gamma.rs: mean, variance", "measures-distributions/src/distributions/continuous/beta.rs: mean, variance", "measures-distributions/src/distributions/continuous/exponential.rs: mean, variance", "measures-distributions/src/distributions/continuous/normal.rs: variance", "measures-distributions/src/distributions/continuous/chi_squared.rs: mean, variance", "measures-distributions/src/distributions/discrete/bernoulli.rs: mean, variance", "measures-distributions/src/distributions/discrete/binomial.rs: mean, variance", "measures-distributions/src/distributions/discrete/geometric.rs: mean, variance", "measures-distributions/src/distributions/discrete/negative_binomial.rs: mean, variance", "measures-distributions/src/distributions/discrete/categorical.rs: mean, variance"]}
{"id": "C119", "title": "Final-tagless programs in floating point: accuracy, and agreement of direct and compiled evaluation", "statement": "Running a final-tagless program with the direct evaluator on floating-point numbers gives a number whose distance from the exact value of its formula is bounded by the rules of error propagation; compiling what the program records and calling the result gives the same with the error of the compiled approximations; so the two agree up to the sum of the bounds.", "quantifier": "all programs that use the interpreter only through its operations, all inputs for which no operation overflows or leaves its domain within its error, all accurate libraries", "why_tests_cant": "Programs are unboundedly large; the error depends on every intermediate value.", "anchors": ["symbolic-math/src/final_tagless.rs: DirectEval, JITEval, JITRepr::generate_ir", "symbolic-math/src/jit.rs: compile_final_tagless, generate_accurate_ln_call, generate_exp_call"]}
{"id": "C120", "title": "Log-densities can be differentiated by running them on dual numbers", "statement": "Evaluating a log-density on dual numbers (a value and a derivative, as the design notes propose for automatic differentiation) returns the log-density and its derivative, with respect to the point and to every parameter, at every interior point; the same for relative log-densities, products, mixtures, transformed measures, samples, exponential-family formulas and final-tagless programs.", "quantifier": "all differentiable curves of parameters and points, at every parameter where the point is inside the support; all lists of observations; all component measures that have the property; all programs", "why_tests_cant": "A numerical derivative check at a few points cannot show that no code path drops the derivative, e.g. by a conversion to f64.", "anchors": ["DESIGN_NOTES.md: Type-Level Computation, Generic Numeric Types for Autodiff", "measures-distributions/src/distributions/continuous/student_t.rs: log_pdf, log_density_decomposition", "measures-distributions/src/distributions/continuous/gamma.rs: log_density_wrt_root", "measures-distributions/src/distributions/continuous/beta.rs: log_density_wrt_root", "measures-distributions/src/distributions/continuous/normal.rs: log_density_wrt_root", "measures-combinators/src/measures/combinators/pushforward.rs: log_density_wrt_root", "measures-combinators/src/measures/combinators/superposition.rs: log_sum_exp", "measures-exponential-family/src/exponential_family/traits.rs: exp_fam_log_density", "symbolic-math/src/final_tagless.rs: DirectEval"]}
{"id": "C121", "title": "Single precision where the library computes in double precision", "statement": "Used with single-precision numbers, Student's t, the log-gamma function behind Gamma, Beta and chi-squared, and the coefficient measures compute in double precision and round once at the end: the results are within half a unit in the last place of single precision of the exact value, up to the error of double precision.", "quantifier": "all single-precision parameters and points, all n and k below 2^53, all accurate double-precision libraries", "why_tests_cant": "The error depends on every bit of the parameters and on two roundings to different formats.", "anchors": ["measures-distributions/src/distributions/continuous/student_t.rs: log_pdf", "measures-distributions/src/distributions/continuous/gamma.rs: gamma_ln", "measures-combinators/src/measures/derived/binomial_coefficient.rs: log_binomial_coefficient", "measures-combinators/src/measures/derived/negative_binomial_coefficient.rs: log_negative_binomial_coefficient"]}
{"id": "C122", "title": "Relative log-densities are logarithms of Radon-Nikodym derivatives", "statement": "The exponential of m.log_density().wrt(b).at(x) is the density of m with respect to b in the sense of measure theory: if b is positive wherever m is, integrating it against b gives m, so importance weights are unbiased; its expectation under m is the Kullback-Leibler divergence, never negative and zero exactly when the two describe the same distribution; where b excludes a point m allows it is +infinity.", "quantifier": "all pairs of probability distributions over a common space, all events, all integrable functions, in particular all accepted parameters", "why_tests_cant": "Integrals over all events and all integrable functions, and an inequality between integrals, cannot be checked at points.", "anchors": ["measures-core/src/core/density.rs: LogDensity, wrt, at, HasLogDensity", "measures-core/src/core/measure.rs: LogDensityBuilder"]}
{"id": "C123", "title": "Derivatives of the log-partition are the moments of the sufficient statistic", "statement": "For an exponential family, the derivative of from_natural(eta).log_partition() in any direction is the mean, and its second derivative the variance, of the sufficient statistic in that direction under the distribution with parameter eta.", "quantifier": "all accepted parameters, all directions, categorical distributions of every length", "why_tests_cant": "Derivatives and moments at every parameter; a test compares numbers at a few parameters.", "anchors": ["measures-exponential-family/src/exponential_family/traits.rs: ExponentialFamily", "measures-distributions/src/distributions/continuous/normal.rs: natural_and_log_partition, from_natural", "measures-distributions/src/distributions/continuous/gamma.rs: natural_and_log_partition", "measures-distributions/src/distributions/continuous/beta.rs: natural_and_log_partition", "measures-distributions/src/distributions/continuous/chi_squared.rs: from_natural", "measures-distributions/src/distributions/continuous/exponential.rs: natural_and_log_partition", "measures-distributions/src/distributions/discrete/geometric.rs: natural_and_log_partition", "measures-distributions/src/distributions/discrete/categorical.rs: from_natural, natural_and_log_partition"]}
{"id": "C124", "title": "Combinators denote the operations on measures", "statement": "A product of two measures is the product measure, a weighted measure the scaled measure, an integral measure the measure with that density, a mixture the weighted sum, a transformed measure the image under the transformation, and n independent draws the n-fold product, so the draws are independent and each has the law of the distribution.", "quantifier": "all component measures with a measurable log-density below +infinity, all events, all weights, numbers of components and sample sizes, all accepted parameters", "why_tests_cant": "Equality of measures is equality on all events.", "anchors": ["measures-combinators/src/measures/combinators/product.rs: log_density_wrt_root", "measures-combinators/src/measures/derived/weighted.rs: log_density_wrt_root", "measures-combinators/src/measures/derived/integral.rs: log_density_wrt_root", "measures-combinators/src/measures/combinators/superposition.rs: log_density_wrt_root", "measures-combinators/src/measures/combinators/pushforward.rs: log_density_wrt_root, log_transform, exp_transform, linear_transform, logit_transform", "measures-exponential-family/src/exponential_family/iid.rs: iid_log_density, iid_log_density_fallback", "measures-distributions/src/distributions/continuous/normal.rs: log_density_iid", "measures-distributions/src/distributions/continuous/cauchy.rs: log_density_iid", "measures-distributions/src/distributions/continuous/student_t.rs: log_density_iid"]}
{"id": "C125", "title": "Sums of independent draws have the textbook distribution", "statement": "If independent draws are taken from distributions of the library, then a linear combination of normals is normal, sums of gammas with a common rate (of chi-squareds, of exponentials) are gamma (chi-squared, gamma), sums of squared standardised normals are chi-squared, the smallest of exponentials is exponential, sums of Poissons are Poisson, of Bernoullis and binomials with common p binomial, of geometrics and negative binomials with common p negative binomial, each with the parameters of the textbook.", "quantifier": "all accepted parameters, all numbers of draws", "why_tests_cant": "Equality of laws is equality on all events, for every number of draws.", "anchors": ["measures-distributions/src/distributions/continuous/normal.rs: log_density_wrt_root", "measures-distributions/src/distributions/continuous/gamma.rs: log_density_wrt_root", "measures-distributions/src/distributions/continuous/chi_squared.rs: log_density_wrt_root", "measures-distributions/src/distributions/continuous/exponential.rs: log_density_wrt_root", "measures-distributions/src/distributions/discrete/poisson.rs: log_density_wrt_root", "measures-distributions/src/distributions/discrete/bernoulli.rs: log_density_wrt_root", "measures-distributions/src/distributions/discrete/binomial.rs: log_density_wrt_root", "measures-distributions/src/distributions/discrete/geometric.rs: log_density_wrt_root", "measures-distributions/src/distributions/discrete/negative_binomial.rs: log_density_wrt_root", "measures-combinators/src/measures/derived/binomial_coefficient.rs: BinomialCoefficientMeasure", "measures-combinators/src/measures/derived/negative_binomial_coefficient.rs: NegativeBinomialCoefficientMeasure"]}
{"id": "C126", "title": "The law of a distribution determines its parameters", "statement": "Two distributions of one family whose log-densities give every event the same probability were constructed with the same parameters.", "quantifier": "all pairs of accepted parameters, all events", "why_tests_cant": "Ranges over all pairs of parameters, and compares two measures on all events.", "anchors": ["measures-distributions/src/distributions/continuous/normal.rs: new, log_density_wrt_root", "measures-distributions/src/distributions/continuous/exponential.rs: new, log_density_wrt_root", "measures-distributions/src/distributions/continuous/gamma.rs: new, log_density_wrt_root", "measures-distributions/src/distributions/continuous/beta.rs: new, log_density_wrt_root", "measures-distributions/src/distributions/continuous/chi_squared.rs: new, log_density_wrt_root", "measures-distributions/src/distributions/continuous/cauchy.rs: new, log_density_wrt_root", "measures-distributions/src/distributions/continuous/student_t.rs: new, log_density_wrt_root", "measures-distributions/src/distributions/discrete/bernoulli.rs: new, log_density_wrt_root", "measures-distributions/src/distributions/discrete/poisson.rs: new, log_density_wrt_root", "measures-distributions/src/distributions/discrete/geometric.rs: new, log_density_wrt_root", "measures-distributions/src/distributions/discrete/categorical.rs: new, log_density_wrt_root", "measures-distributions/src/distributions/discrete/binomial.rs: new, log_density_wrt_root", "measures-distributions/src/distributions/discrete/negative_binomial.rs: new, log_density_wrt_root"]}
{"id": "C127", "title": "In floating point, evaluators and simplifier return the identical number", "statement": "When every operation of an expression, carried out in floating point, gives a finite number, all evaluators return exactly that number, to the last bit, and so does evaluation of the simplified expression.", "quantifier": "all expressions, all values of the variables, f64 and f32, all libraries of elementary functions", "why_tests_cant": "Ranges over all expressions and all floating-point inputs; a difference in the last digit appears only for particular ones.", "anchors": ["symbolic-math/src/expr.rs: Expr::evaluate", "symbolic-math/src/expr.rs: Expr::evaluate_single_var", "symbolic-math/src/expr.rs: Expr::evaluate_batch", "symbolic-math/src/expr.rs: Expr::evaluate_batch_optimized", "symbolic-math/src/expr.rs: Expr::evaluate_polynomial", "symbolic-math/src/expr.rs: Expr::evaluate_smart", "symbolic-math/src/expr.rs: Expr::simplify"]}
{"id": "C128", "title": "A small change of a parameter changes every probability only a little", "statement": "The probabilities a distribution gives to events depend continuously on its parameters: for every tolerance, parameters close enough to given ones assign every event a probability within the tolerance, uniformly over all events.", "quantifier": "all distributions, all admissible parameters, all events, all tolerances", "why_tests_cant": "Ranges over all events at once and over all sequences of parameters; a jump at one parameter value is found only by testing that value.", "anchors": ["measures-distributions/src/distributions/continuous/normal.rs: Normal::new", "measures-distributions/src/distributions/continuous/normal.rs: impl HasLogDensity / ExponentialFamily for Normal", "measures-distributions/src/distributions/continuous/exponential.rs: Exponential::new", "measures-distributions/src/distributions/continuous/exponential.rs: impl HasLogDensity / ExponentialFamily for Exponential", "measures-distributions/src/distributions/continuous/gamma.rs: Gamma::new", "measures-distributions/src/distributions/continuous/gamma.rs: impl HasLogDensity / ExponentialFamily for Gamma", "measures-distributions/src/distributions/continuous/beta.rs: Beta::new", "measures-distributions/src/distributions/continuous/beta.rs: impl HasLogDensity / ExponentialFamily for Beta", "measures-distributions/src/distributions/continuous/cauchy.rs: Cauchy::new", "measures-distributions/src/distributions/continuous/cauchy.rs: impl HasLogDensity / ExponentialFamily for Cauchy", "measures-distributions/src/distributions/continuous/student_t.rs: StudentT::new", "measures-distributions/src/distributions/continuous/student_t.rs: impl HasLogDensity / ExponentialFamily for StudentT", "measures-distributions/src/distributions/continuous/chi_squared.rs: ChiSquared::new", "measures-distributions/src/distributions/continuous/chi_squared.rs: impl HasLogDensity / ExponentialFamily for ChiSquared", "measures-distributions/src/distributions/discrete/poisson.rs: Poisson::new", "measures-distributions/src/distributions/discrete/poisson.rs: impl HasLogDensity / ExponentialFamily for Poisson", "measures-distributions/src/distributions/discrete/binomial.rs: Binomial::new", "measures-distributions/src/distributions/discrete/binomial.rs: impl HasLogDensity / ExponentialFamily for Binomial", "measures-distributions/src/distributions/discrete/negative_binomial.rs: NegativeBinomial::new", "measures-distributions/src/distributions/discrete/negative_binomial.rs: impl HasLogDensity / ExponentialFamily for NegativeBinomial", "measures-distributions/src/distributions/discrete/geometric.rs: Geometric::new", "measures-distributions/src/distributions/discrete/geometric.rs: impl HasLogDensity / ExponentialFamily for Geometric", "measures-distributions/src/distributions/discrete/bernoulli.rs: Bernoulli::new", "measures-distributions/src/distributions/discrete/bernoulli.rs: impl HasLogDensity / ExponentialFamily for Bernoulli"]}
{"id": "C129", "title": "The limit theorems between the families hold", "statement": "Binomial distributions with many trials and a fixed expected number of successes, and negative binomial distributions with a fixed expected number of failures, converge to the Poisson distribution; Student distributions with many degrees of freedom converge to the normal distribution; rescaled geometric waiting times converge to the exponential distribution.", "quantifier": "all rates, all sequences of parameters with the right limit, all events (all thresholds for waiting times), all tolerances", "why_tests_cant": "A statement about infinite sequences of distributions and about every event.", "anchors": ["measures-distributions/src/distributions/discrete/binomial.rs: Binomial::new", "measures-distributions/src/distributions/discrete/binomial.rs: impl HasLogDensity / ExponentialFamily for Binomial", "measures-distributions/src/distributions/discrete/negative_binomial.rs: NegativeBinomial::new", "measures-distributions/src/distributions/discrete/negative_binomial.rs: impl HasLogDensity / ExponentialFamily for NegativeBinomial", "measures-distributions/src/distributions/discrete/poisson.rs: Poisson::new", "measures-distributions/src/distributions/discrete/poisson.rs: impl HasLogDensity / ExponentialFamily for Poisson", "measures-distributions/src/distributions/continuous/student_t.rs: StudentT::new", "measures-distributions/src/distributions/continuous/student_t.rs: impl HasLogDensity / ExponentialFamily for StudentT", "measures-distributions/src/distributions/continuous/normal.rs: Normal::new", "measures-distributions/src/distributions/continuous/normal.rs: impl HasLogDensity / ExponentialFamily for Normal", "measures-distributions/src/distributions/discrete/geometric.rs: Geometric::new", "measures-distributions/src/distributions/discrete/geometric.rs: impl HasLogDensity / ExponentialFamily for Geometric", "measures-distributions/src/distributions/continuous/exponential.rs: Exponential::new", "measures-distributions/src/distributions/continuous/exponential.rs: impl HasLogDensity / ExponentialFamily for Exponential"]}
{"id": "C130", "title": "A finite point never has log-density NaN or plus infinity", "statement": "With finite accepted parameters, the log-density of a finite point computed in double or single precision is minus infinity or a finite number below an explicit bound; log-masses of discrete distributions are never positive; sums over samples of any length and mixtures inherit this.", "quantifier": "all accepted parameters and all finite points of the format, all sample sizes, every libm meeting the accuracy assumptions", "why_tests_cant": "Overflow, infinity minus infinity and zero times infinity occur only at extreme combinations of parameters and points, and in sums of extreme length.", "anchors": ["measures-distributions/src/distributions/continuous/normal.rs: impl HasLogDensity for Normal", "measures-distributions/src/distributions/continuous/exponential.rs: impl HasLogDensity for Exponential", "measures-distributions/src/distributions/continuous/cauchy.rs: impl HasLogDensity for Cauchy", "measures-distributions/src/distributions/continuous/gamma.rs: impl HasLogDensity for Gamma", "measures-distributions/src/distributions/continuous/beta.rs: impl HasLogDensity for Beta", "measures-distributions/src/distributions/continuous/student_t.rs: impl HasLogDensity for StudentT", "measures-distributions/src/distributions/continuous/chi_squared.rs: impl HasLogDensity for ChiSquared", "measures-distributions/src/distributions/discrete/poisson.rs: impl HasLogDensity for Poisson", "measures-distributions/src/distributions/discrete/binomial.rs: impl HasLogDensity for Binomial", "measures-distributions/src/distributions/discrete/negative_binomial.rs: impl HasLogDensity for NegativeBinomial", "measures-distributions/src/distributions/discrete/geometric.rs: impl HasLogDensity for Geometric", "measures-distributions/src/distributions/discrete/bernoulli.rs: impl HasLogDensity for Bernoulli", "measures-distributions/src/distributions/discrete/categorical.rs: impl HasLogDensity for Categorical", "measures-exponential-family/src/exponential_family/iid.rs: iid_log_density"]}
{"id": "C131", "title": "Updating a belief with data gives the textbook posterior", "statement": "Adding the joint log-density of a sample to the log-density of a prior distribution of its parameter gives, up to the evidence, the log-density of the conjugate posterior: Beta for Bernoulli, binomial, geometric and negative binomial data; Gamma for Poisson and exponential data, for the rate of gamma data and the precision of normal data; Normal for the mean of normal data. The evidence is the integral of prior times likelihood; updating in batches is updating once.", "quantifier": "all accepted prior parameters, all samples in the support of every length, all parameter values", "why_tests_cant": "The identity must hold at every parameter value, for every sample and prior; a wrong constant or exponent shows only in the posterior, not in single log-densities.", "anchors": ["measures-distributions/src/distributions/continuous/beta.rs: impl HasLogDensity for Beta", "measures-distributions/src/distributions/continuous/gamma.rs: impl HasLogDensity for Gamma", "measures-distributions/src/distributions/continuous/normal.rs: impl HasLogDensity for Normal", "measures-distributions/src/distributions/continuous/exponential.rs: impl HasLogDensity for Exponential", "measures-distributions/src/distributions/discrete/bernoulli.rs: impl HasLogDensity for Bernoulli", "measures-distributions/src/distributions/discrete/binomial.rs: impl HasLogDensity for Binomial", "measures-distributions/src/distributions/discrete/geometric.rs: impl HasLogDensity for Geometric", "measures-distributions/src/distributions/discrete/negative_binomial.rs: impl HasLogDensity for NegativeBinomial", "measures-distributions/src/distributions/discrete/poisson.rs: impl HasLogDensity for Poisson", "measures-exponential-family/src/exponential_family/iid.rs: iid_log_density, iid_log_density_fallback"]}
{"id": "C132", "title": "The joint log-likelihood is strictly concave in the natural parameters", "statement": "On the straight line between the natural parameters (to_natural) of two accepted distributions of one exponential family, every point belongs to an accepted distribution, and the joint log-density of every sample in the support lies on or above the chord, strictly above for different distributions and a non-empty sample. So a local maximum of the likelihood is the global one, and there is at most one.", "quantifier": "all pairs of accepted distributions, all points between them, all samples in the support of every length", "why_tests_cant": "Concavity is a statement about every pair of parameters and every sample; a wrong sign in one log-partition makes the likelihood convex and every fit by gradient ascent diverge, and no single value reveals it.", "anchors": ["measures-distributions/src/distributions/continuous/normal.rs: impl ExponentialFamily for Normal, log_density_wrt_root", "measures-distributions/src/distributions/continuous/gamma.rs: impl ExponentialFamily for Gamma, log_density_wrt_root", "measures-distributions/src/distributions/continuous/beta.rs: impl ExponentialFamily for Beta, log_density_wrt_root", "measures-distributions/src/distributions/continuous/chi_squared.rs: impl ExponentialFamily for ChiSquared, log_density_wrt_root", "measures-distributions/src/distributions/continuous/exponential.rs: impl ExponentialFamily for Exponential, log_density_wrt_root", "measures-distributions/src/distributions/discrete/bernoulli.rs: impl ExponentialFamily for Bernoulli, log_density_wrt_root", "measures-distributions/src/distributions/discrete/binomial.rs: impl ExponentialFamily for Binomial, log_density_wrt_root", "measures-distributions/src/distributions/discrete/geometric.rs: impl ExponentialFamily for Geometric, log_density_wrt_root", "measures-distributions/src/distributions/discrete/negative_binomial.rs: impl ExponentialFamily for NegativeBinomial, log_density_wrt_root", "measures-distributions/src/distributions/discrete/poisson.rs: impl ExponentialFamily for Poisson, log_density_wrt_root", "measures-distributions/src/distributions/discrete/categorical.rs: impl ExponentialFamily for Categorical, log_density_wrt_root", "measures-exponential-family/src/exponential_family/iid.rs: iid_log_density, iid_log_density_fallback"]}
{"id": "C133", "title": "Which densities are log-concave, and so have a single peak", "statement": "Normal and exponential densities are log-concave for all accepted parameters, gamma exactly for shape at least 1, chi-squared exactly for at least 2 degrees of freedom, beta exactly for both parameters at least 1, Cauchy and Student t never; Poisson, geometric, binomial and negative binomial probabilities (the latter two with their base measure, success probability strictly inside the unit interval) are. A log-concave density has no valley. Affine pushforwards keep log-concavity; the log and logit pushforwards make every gamma, exponential, chi-squared and beta density log-concave; mixing two log-concave densities can destroy it.", "quantifier": "all accepted parameters, all pairs of points and all points between them", "why_tests_cant": "Shape is a statement about all triples of points; a sampler or optimiser that assumes a single peak fails silently if one family breaks it.", "anchors": ["measures-distributions/src/distributions/continuous/normal.rs: Normal, log_density_wrt_root", "measures-distributions/src/distributions/continuous/gamma.rs: Gamma, log_density_wrt_root", "measures-distributions/src/distributions/continuous/beta.rs: Beta, log_density_wrt_root", "measures-distributions/src/distributions/continuous/chi_squared.rs: ChiSquared, log_density_wrt_root", "measures-distributions/src/distributions/continuous/exponential.rs: Exponential, log_density_wrt_root", "measures-distributions/src/distributions/continuous/cauchy.rs: Cauchy, log_density_wrt_root", "measures-distributions/src/distributions/continuous/student_t.rs: StudentT, log_density_wrt_root", "measures-distributions/src/distributions/discrete/binomial.rs: Binomial, log_density_wrt_root", "measures-distributions/src/distributions/discrete/geometric.rs: Geometric, log_density_wrt_root", "measures-distributions/src/distributions/discrete/negative_binomial.rs: NegativeBinomial, log_density_wrt_root", "measures-distributions/src/distributions/discrete/poisson.rs: Poisson, log_density_wrt_root", "measures-combinators/src/measures/combinators/pushforward.rs: PushforwardMeasure, transforms"]}
{"id": "C134", "title": "Larger parameters mean larger draws: monotone likelihood ratios", "statement": "For two distributions of one family, hi.log_density().wrt(lo).at(x) never decreases as x grows exactly in these cases: normal with equal scales and ordered means, exponential with the smaller rate on top, gamma with larger shape and smaller rate, chi-squared with more degrees of freedom, beta with larger first and smaller second parameter, Bernoulli, Poisson and binomial (same n) with the larger parameter, geometric and negative binomial (same r) with the smaller success probability; for Cauchy and Student only if they are the same. In these cases every threshold is reached at least as often under hi as under lo, and every increasing nonnegative function has at least as large a mean. Moving a normal or Cauchy distribution up raises every threshold probability.", "quantifier": "all accepted parameter pairs, all pairs of points, all thresholds and upper sets, all nonnegative increasing functions", "why_tests_cant": "One-sided tests and threshold rules are justified by the order at all points at once.", "anchors": ["measures-distributions/src/distributions/continuous/normal.rs: Normal, log_density_wrt_root", "measures-distributions/src/distributions/continuous/gamma.rs: Gamma, log_density_wrt_root", "measures-distributions/src/distributions/continuous/beta.rs: Beta, log_density_wrt_root", "measures-distributions/src/distributions/continuous/chi_squared.rs: ChiSquared, log_density_wrt_root", "measures-distributions/src/distributions/continuous/exponential.rs: Exponential, log_density_wrt_root", "measures-distributions/src/distributions/continuous/cauchy.rs: Cauchy, log_density_wrt_root", "measures-distributions/src/distributions/continuous/student_t.rs: StudentT, log_density_wrt_root", "measures-distributions/src/distributions/discrete/binomial.rs: Binomial, log_density_wrt_root", "measures-distributions/src/distributions/discrete/geometric.rs: Geometric, log_density_wrt_root", "measures-distributions/src/distributions/discrete/negative_binomial.rs: NegativeBinomial, log_density_wrt_root", "measures-distributions/src/distributions/discrete/poisson.rs: Poisson, log_density_wrt_root", "measures-distributions/src/distributions/discrete/bernoulli.rs: Bernoulli, log_density_wrt_root", "measures-core/src/core/density.rs: LogDensity, wrt, at"]}
{"id": "C135", "title": "Distribution functions, waiting times and tails", "statement": "An exponential draw exceeds x with probability exp(-r max(x,0)), a geometric one n with probability (1-p)^n; the Cauchy distribution function is 1/2 + arctan((x-l)/s)/pi. Waiting longer than t for event n+1 (gamma) is as likely as at most n events up to t (Poisson); the beta distribution function with integer parameters is a binomial tail; at most k failures before success r (negative binomial) is as likely as at least r successes in k+r trials (binomial). Normal, Cauchy and Student t put equal probability on both sides of the centre and one half on each. Normal and Poisson tails obey the exponential bounds; Cauchy tails stay above 1/(2 pi z). Exponential and geometric waiting times forget the past, and the first of two independent ones is again such a waiting time: rates add up, failure probabilities multiply.", "quantifier": "all accepted parameters, all thresholds, all counts", "why_tests_cant": "Probabilities of events are integrals of the density over infinitely many points, and the dualities link the code of two families at every parameter.", "anchors": ["measures-distributions/src/distributions/continuous/normal.rs: Normal, log_density_wrt_root", "measures-distributions/src/distributions/continuous/gamma.rs: Gamma, log_density_wrt_root", "measures-distributions/src/distributions/continuous/beta.rs: Beta, log_density_wrt_root", "measures-distributions/src/distributions/continuous/chi_squared.rs: ChiSquared, log_density_wrt_root", "measures-distributions/src/distributions/continuous/exponential.rs: Exponential, log_density_wrt_root", "measures-distributions/src/distributions/continuous/cauchy.rs: Cauchy, log_density_wrt_root", "measures-distributions/src/distributions/continuous/student_t.rs: StudentT, log_density_wrt_root", "measures-distributions/src/distributions/discrete/binomial.rs: Binomial, log_density_wrt_root", "measures-distributions/src/distributions/discrete/geometric.rs: Geometric, log_density_wrt_root", "measures-distributions/src/distributions/discrete/negative_binomial.rs: NegativeBinomial, log_density_wrt_root", "measures-distributions/src/distributions/discrete/poisson.rs: Poisson, log_density_wrt_root", "measures-distributions/src/distributions/discrete/bernoulli.rs: Bernoulli, log_density_wrt_root", "measures-core/src/core/density.rs: LogDensity, wrt, at"]}
{"id": "C136", "title": "Entropy and the distributions of maximal entropy", "statement": "The expectation of minus the log-density under the distribution it describes exists and is the textbook entropy for normal, exponential, gamma, beta, chi-squared, Cauchy, Bernoulli, geometric and categorical. Coding draws of m with the log-density of another distribution never costs less than the entropy of m and costs the same only if the two agree. Under a bound on the mean squared distance from mu the normal has the largest entropy, on the non-negative reals with a bound on the mean the exponential, on the unit interval Beta(1,1), on 1, 2, ... with a bound on the mean the geometric, on n outcomes the categorical with equal probabilities, and no other distribution reaches the bound. Entropies of a product add; an affine map adds ln|a|.", "quantifier": "all accepted parameters; all pairs of measures with measurable log-densities and total mass one; all affine maps with non-zero slope", "why_tests_cant": "Entropy is an integral of the log-density against itself, and maximality compares one distribution with every other.", "anchors": ["measures-distributions/src/distributions/continuous/normal.rs: Normal, log_density_wrt_root", "measures-distributions/src/distributions/continuous/gamma.rs: Gamma, log_density_wrt_root", "measures-distributions/src/distributions/continuous/beta.rs: Beta, log_density_wrt_root", "measures-distributions/src/distributions/continuous/chi_squared.rs: ChiSquared, log_density_wrt_root", "measures-distributions/src/distributions/continuous/exponential.rs: Exponential, log_density_wrt_root", "measures-distributions/src/distributions/continuous/cauchy.rs: Cauchy, log_density_wrt_root", "measures-distributions/src/distributions/continuous/student_t.rs: StudentT, log_density_wrt_root", "measures-distributions/src/distributions/discrete/binomial.rs: Binomial, log_density_wrt_root", "measures-distributions/src/distributions/discrete/geometric.rs: Geometric, log_density_wrt_root", "measures-distributions/src/distributions/discrete/negative_binomial.rs: NegativeBinomial, log_density_wrt_root", "measures-distributions/src/distributions/discrete/poisson.rs: Poisson, log_density_wrt_root", "measures-distributions/src/distributions/discrete/bernoulli.rs: Bernoulli, log_density_wrt_root", "measures-distributions/src/distributions/discrete/categorical.rs: Categorical, log_density_wrt_root", "measures-core/src/core/density.rs: LogDensity, wrt, at", "measures-combinators/src/measures/combinators/product.rs: ProductMeasure", "measures-combinators/src/measures/combinators/pushforward.rs: PushforwardMeasure, linear_transform"]}
{"id": "C137", "title": "Different expressions for the same measure have the same log-density", "statement": "Building a measure from the combinators in two equivalent ways gives the same log-density. Pushing forward by exp then log (or log then exp on the positive half-line) gives the measure back; affine pushforwards compose as the maps do and an affine map is undone by its inverse; shifting the logarithm is scaling the variable; reflecting the unit interval is reflecting the log-odds. A mixture of one component with weight one is the component; the order of the components does not matter; repeated components add their weights; weight zero drops out; nested mixtures flatten. Pushforward, weight and product distribute over a mixture. Grouping and order of a product do not matter and weights move freely through it. The relative log-density of two measures is unchanged when both are pushed forward, shifts by the difference of the weights, and adds over products.", "quantifier": "all measures with any log-density for pushforwards, products, weights and relative densities; all lists of components with proper log-densities at the point and non-negative weights for mixtures; all real points", "why_tests_cant": "An identity between all compositions of the combinators over all measures.", "anchors": ["measures-combinators/src/measures/combinators/product.rs: ProductMeasure", "measures-combinators/src/measures/combinators/superposition.rs: MixtureMeasure, log_sum_exp", "measures-combinators/src/measures/combinators/pushforward.rs: PushforwardMeasure, transforms", "measures-combinators/src/measures/derived/weighted.rs: WeightedMeasure", "measures-core/src/core/density.rs: LogDensity, wrt, at"]}
{"id": "C138", "title": "Drawing a parameter first and then a value gives the textbook distribution", "statement": "If a parameter is drawn from one distribution of the library and then a value from another with that parameter, the density of the value, the average of the conditional densities, is that of a third distribution of the library: a Poisson count with Gamma rate is negative binomial, with exponential rate geometric; a normal variable with Gamma (or scaled chi-squared) precision is Student t, with normal mean normal; a Bernoulli trial with Beta probability is Bernoulli; a binomial thinning of a Poisson count is Poisson and the two parts of a split Poisson count are binomial given the total; a geometric number of exponential waiting times is exponential; a Beta fraction of a Gamma amount is Gamma.", "quantifier": "all accepted parameters of all three distributions, all points", "why_tests_cant": "An identity between integrals of three log-densities over all parameters and points.", "anchors": ["measures-distributions/src/distributions/continuous/normal.rs: Normal", "measures-distributions/src/distributions/continuous/gamma.rs: Gamma", "measures-distributions/src/distributions/continuous/beta.rs: Beta", "measures-distributions/src/distributions/continuous/chi_squared.rs: ChiSquared", "measures-distributions/src/distributions/continuous/exponential.rs: Exponential", "measures-distributions/src/distributions/continuous/student_t.rs: StudentT", "measures-distributions/src/distributions/discrete/poisson.rs: Poisson", "measures-distributions/src/distributions/discrete/binomial.rs: Binomial", "measures-distributions/src/distributions/discrete/negative_binomial.rs: NegativeBinomial", "measures-distributions/src/distributions/discrete/geometric.rs: Geometric", "measures-distributions/src/distributions/discrete/bernoulli.rs: Bernoulli", "measures-combinators/src/measures/combinators/pushforward.rs: PushforwardMeasure, linear_transform"]}
{"id": "C139", "title": "With more and more observations a belief settles at the parameter value behind them", "statement": "Observing values one after another and applying Bayes' rule with the joint log-density, a Beta, Gamma or normal belief about a parameter concentrates: whenever the average of the observations converges, the probability of every neighbourhood of the parameter value with that average tends to one and the mean of the belief tends to that value. Observations drawn independently from the distribution with parameter value t take the belief to t with probability one.", "quantifier": "all accepted priors, all infinite sequences of observations in the support with a convergent average, all probability spaces carrying independent draws", "why_tests_cant": "A limit over infinitely many observations, and a statement about almost every infinite sequence of draws.", "anchors": ["measures-exponential-family/src/exponential_family/iid.rs: iid_log_density, iid_log_density_fallback", "measures-distributions/src/distributions/continuous/normal.rs: Normal", "measures-distributions/src/distributions/continuous/gamma.rs: Gamma", "measures-distributions/src/distributions/continuous/beta.rs: Beta", "measures-distributions/src/distributions/continuous/exponential.rs: Exponential", "measures-distributions/src/distributions/discrete/poisson.rs: Poisson", "measures-distributions/src/distributions/discrete/binomial.rs: Binomial", "measures-distributions/src/distributions/discrete/negative_binomial.rs: NegativeBinomial", "measures-distributions/src/distributions/discrete/geometric.rs: Geometric", "measures-distributions/src/distributions/discrete/bernoulli.rs: Bernoulli"]}
{"id": "C140", "title": "The joint log-density recognises which of two candidates produced the data", "statement": "For independent observations from one distribution, the joint log-density under it exceeds the joint log-density under any different distribution, with an error probability that falls geometrically in the number of observations; with probability one it does so from some number of observations on.", "quantifier": "all pairs of different accepted parameter values, all probability spaces carrying independent draws, all sample sizes", "why_tests_cant": "A statement about the probability of a comparison at every sample size, and about almost every infinite sequence of draws.", "anchors": ["measures-exponential-family/src/exponential_family/iid.rs: iid_log_density, iid_log_density_fallback", "measures-distributions/src/distributions/continuous/normal.rs: Normal", "measures-distributions/src/distributions/continuous/gamma.rs: Gamma", "measures-distributions/src/distributions/continuous/beta.rs: Beta", "measures-distributions/src/distributions/continuous/exponential.rs: Exponential", "measures-distributions/src/distributions/continuous/cauchy.rs: Cauchy", "measures-distributions/src/distributions/continuous/student_t.rs: StudentT", "measures-distributions/src/distributions/continuous/chi_squared.rs: ChiSquared", "measures-distributions/src/distributions/discrete/poisson.rs: Poisson", "measures-distributions/src/distributions/discrete/binomial.rs: Binomial", "measures-distributions/src/distributions/discrete/negative_binomial.rs: NegativeBinomial", "measures-distributions/src/distributions/discrete/geometric.rs: Geometric", "measures-distributions/src/distributions/discrete/bernoulli.rs: Bernoulli", "measures-distributions/src/distributions/discrete/categorical.rs: Categorical"]}
{"id": "C141", "title": "Decisions by the relative log-density are optimal", "statement": "Deciding between two distributions by comparing log_density().wrt().at(x), or the difference of the joint log-densities of a sample, with a threshold is most powerful: no decision rule, randomised or not, that errs no more often under the second distribution is right more often under the first, and none has a smaller weighted sum of the two error probabilities; the least sum is the overlap of the densities. In one-parameter families the same holds for comparing the sum of the statistic with a threshold, against every larger parameter at once.", "quantifier": "all pairs of accepted distributions, thresholds, sample sizes and measurable randomised decision rules", "why_tests_cant": "An optimality statement over all measurable decision rules.", "anchors": ["measures-core/src/core/density.rs: LogDensity, wrt, at", "measures-exponential-family/src/exponential_family/iid.rs: iid_log_density_fallback", "measures-distributions/src/distributions/continuous/normal.rs: Normal", "measures-distributions/src/distributions/continuous/gamma.rs: Gamma", "measures-distributions/src/distributions/continuous/beta.rs: Beta", "measures-distributions/src/distributions/continuous/exponential.rs: Exponential", "measures-distributions/src/distributions/continuous/chi_squared.rs: ChiSquared", "measures-distributions/src/distributions/discrete/poisson.rs: Poisson", "measures-distributions/src/distributions/discrete/binomial.rs: Binomial", "measures-distributions/src/distributions/discrete/negative_binomial.rs: NegativeBinomial", "measures-distributions/src/distributions/discrete/geometric.rs: Geometric", "measures-distributions/src/distributions/discrete/bernoulli.rs: Bernoulli"]}
{"id": "C142", "title": "The order of the data and their division into batches", "statement": "Adding the log-density of one more observation to the joint log-density so far gives exactly the joint log-density of all observations, in every arithmetic. Taking the observations in another order, or adding up joint log-densities of batches, changes the result by no more than the accumulated rounding error, and not at all when the log-densities are multiples of a power of two within the precision. One impossible observation makes the joint log-density minus infinity wherever it stands.", "quantifier": "all distributions, samples, orders and divisions into batches, in both formats", "why_tests_cant": "The number of orders and divisions grows faster than exponentially with the sample.", "anchors": ["measures-exponential-family/src/exponential_family/iid.rs: iid_log_density_fallback, IID", "measures-core/src/core/density.rs: LogDensityBuilder", "measures-distributions/src/distributions/continuous/exponential.rs: Exponential"]}
{"id": "C143", "title": "The type-level markers for exponential families and primitive measures are right", "statement": "A distribution type whose IsExponentialFamily marker is true forms an exponential family: one finite set of statistics of the data, common to all accepted parameters, carries all the parameter has to do with the data. The Cauchy and Student-t types, whose marker is false, are not exponential families with any finite number of statistics. Joint distributions of samples inherit the form. Exactly the Lebesgue and counting measures are marked as primitive; they have everything in their support and log-density zero.", "quantifier": "all accepted parameters of every distribution type, all points of the common support, all numbers of statistics, all sample sizes", "why_tests_cant": "That no finite set of statistics is enough is a statement about all functions of the data; that one is enough is an identity at all parameters and points.", "anchors": ["measures-core/src/core/measure.rs: MeasureMarker, IsPrimitive, IsExponentialFamily", "measures-core/src/core/density.rs: dispatch on the markers", "measures-distributions/src/distributions/continuous/cauchy.rs: MeasureMarker for Cauchy", "measures-distributions/src/distributions/continuous/student_t.rs: MeasureMarker for StudentT", "measures-exponential-family/src/exponential_family/iid.rs: MeasureMarker for IID"]}
{"id": "C144", "title": "Joint log-densities by the exponential-family path stay accurate for samples of any size", "statement": "In double and single precision the joint log-density of n observations by sums of sufficient statistics, for the normal, standard normal, Gamma, Beta, chi-squared, Poisson, Bernoulli and binomial distributions, is a finite number within a constant times n units of roundoff of the sum of the logarithms of the mathematical density or mass, relative to the size of the terms; for one observation it is the single-observation exponential-family value to the last bit.", "quantifier": "all representable parameters and observations whose terms stay below the stated size, all sample sizes n with n u at most 1/1000, both formats, every accurate elementary-function library", "why_tests_cant": "The bound is on a real number for every sample of every size.", "anchors": ["measures-exponential-family/src/exponential_family/traits.rs: compute_iid_exp_fam_log_density", "measures-exponential-family/src/exponential_family/iid.rs: IID::iid_log_density", "measures-distributions/src/distributions/continuous/gamma.rs: natural_and_log_partition", "measures-distributions/src/distributions/continuous/beta.rs: natural_and_log_partition", "measures-distributions/src/distributions/continuous/chi_squared.rs: natural_and_log_partition", "measures-distributions/src/distributions/continuous/normal.rs: natural_and_log_partition", "measures-distributions/src/distributions/continuous/stdnormal.rs: natural_and_log_partition", "measures-distributions/src/distributions/discrete/poisson.rs: natural_and_log_partition", "measures-distributions/src/distributions/discrete/bernoulli.rs: natural_and_log_partition", "measures-distributions/src/distributions/discrete/binomial.rs: natural_and_log_partition"]}
{"id": "C145", "title": "Reading an expression from egglog text ends and ignores surrounding white space", "statement": "The recursion that reads an expression back from text ends on every text, and white space of any kind before or after the text changes neither what is read nor what is refused.", "quantifier": "all texts, of any length and nesting, all white space around them", "why_tests_cant": "Texts of any nesting; every mixture of the 25 Unicode white-space characters.", "anchors": ["symbolic-math/src/optimization.rs: egglog_to_expr, parse_binary_args"]}
{"id": "C146", "title": "A sample of one: joint and single exponential-family values are the same number", "statement": "In double and single precision the joint exponential-family log-density of a sample of one is the exponential-family log-density of that observation, the same floating-point value, whether it is finite, infinite or NaN, for every family with an array of statistics including ones defined by users.", "quantifier": "all parameters and observations of all eleven families, infinities and NaN included; any user family whose statistic has the declared length", "why_tests_cant": "Every bit pattern of parameter and observation.", "anchors": ["measures-exponential-family/src/exponential_family/traits.rs: compute_iid_exp_fam_log_density, exp_fam_log_density", "measures-exponential-family/src/exponential_family/iid.rs: IID::iid_log_density"]}
{"id": "C147", "title": "The joint exponential-family value depends on the sample through its statistic, in floating point", "statement": "In double and single precision the joint exponential-family log-densities of two Bernoulli samples, or two geometric samples, of the same size and the same total are the same floating-point value, whatever the parameter. Reordering a normal, standard normal, Gamma, Beta, chi-squared, Poisson or binomial sample keeps the joint value finite and changes it by at most twice the accuracy bound of C144.", "quantifier": "all pairs of count samples with totals below 2^53 (2^24 in single precision), all parameters; all permutations of samples within the ranges of C144", "why_tests_cant": "All pairs of samples of any size; all orders.", "anchors": ["measures-exponential-family/src/exponential_family/traits.rs: compute_iid_exp_fam_log_density", "measures-exponential-family/src/exponential_family/iid.rs: IID::iid_log_density, IID::iid_log_density_fallback"]}
{"id": "C148", "title": "The two ways to compute a joint log-density agree in floating point", "statement": "In double and single precision the joint log-density by sufficient statistics and by summing over the observations (for the normal distribution: by log_density_iid) are both finite and differ by at most a constant times n units of roundoff relative to the size of the terms, for normal, Gamma, Beta, chi-squared, Bernoulli and Poisson samples (Poisson in double precision).", "quantifier": "all representable parameters and observations whose terms stay below the stated size, all sample sizes n with n u at most 1/1000, every accurate elementary-function library", "why_tests_cant": "The bound is for every sample of every size.", "anchors": ["measures-exponential-family/src/exponential_family/traits.rs: compute_iid_exp_fam_log_density", "measures-exponential-family/src/exponential_family/iid.rs: IID::iid_log_density, IID::iid_log_density_fallback", "measures-distributions/src/distributions/continuous/normal.rs: Normal::log_density_iid"]}
{"id": "C149", "title": "Comparing parameters by computed joint log-likelihoods gives the true order up to rounding", "statement": "If the computed joint exponential-family log-density of a sample under one parameter is not above the one under another, then the true joint log-likelihoods are in the same order up to the sum of the two error bounds; and if the true ones differ by more than that, the computed ones are strictly in the right order. For normal, Gamma, Beta, chi-squared, Poisson, Bernoulli and binomial models.", "quantifier": "all pairs of representable parameters, all samples of any size within the ranges of C144, both formats, every accurate elementary-function library", "why_tests_cant": "Every pair of parameters and every sample.", "anchors": ["measures-exponential-family/src/exponential_family/traits.rs: compute_iid_exp_fam_log_density", "measures-exponential-family/src/exponential_family/iid.rs: IID::iid_log_density"]}
{"id": "C150", "title": "The log-density and the exponential-family log-density of one observation agree up to rounding", "statement": "For normal, Gamma, Beta, chi-squared, Poisson and Bernoulli distributions the value of log_density (by the formula of the distribution) and the value of exp_fam_log_density (by natural parameters, sufficient statistic and log-partition) of one observation in the support are both finite and differ by at most a stated multiple of the roundoff times the size of the terms. The exponential distribution is not among them: its two values differ by more than one at rate two.", "quantifier": "all representable parameters and observations within the stated ranges, both formats (Poisson: double precision), every accurate elementary-function library that returns numbers of the format", "why_tests_cant": "Every parameter and every observation.", "anchors": ["measures-exponential-family/src/exponential_family/traits.rs: exp_fam_log_density, compute_exp_fam_log_density", "measures-distributions/src: HasLogDensity implementations of Normal, Gamma, Beta, ChiSquared, Poisson, Bernoulli, Exponential"]}

{
 "claims": [
  {
   "property": "C01",
   "status": "partial",
   "theorems": [
    "Verif.C01_relative_log_density_partial",
    "Verif.C01_relative_log_density_apart_partial"
   ],
   "note": "Holds for every legal layout when both operands occupy memory, and whenever the two fields have different addresses; refuted for zero-sized operands sharing an address (C04_zero_sized_base_violated)."
  },
  {
   "property": "C02",
   "status": "partial",
   "theorems": [
    "Verif.C02_self",
    "Verif.C02_antisymm_partial",
    "Verif.C02_chain_partial",
    "Verif.C02_violated"
   ],
   "note": "Identity holds for every layout; antisymmetry and the chain rule when the builder fields are at different addresses, and refuted when a zero-sized base shares the address of the measure (C02_violated)."
  },
  {
   "property": "C03",
   "status": "proved",
   "theorems": [
    "Verif.C03_wrt",
    "Verif.C03_last_wrt_wins"
   ],
   "note": ""
  },
  {
   "property": "C04",
   "status": "partial",
   "theorems": [
    "Verif.C04_shortcut_never_fires_partial",
    "Verif.C04_zero_sized_base_violated"
   ],
   "note": "Proved for operands that occupy memory; refuted in general: a zero-sized base may share its address with the measure, and `at` then returns 0."
  },
  {
   "property": "C05",
   "status": "proved",
   "theorems": [
    "Verif.C05_cached_transparent"
   ],
   "note": ""
  },
  {
   "property": "C06",
   "status": "proved",
   "theorems": [
    "Verif.C06_batch_pointwise"
   ],
   "note": ""
  },
  {
   "property": "C07",
   "status": "proved",
   "theorems": [
    "Verif.C07_evaluate_is_total",
    "Verif.C07_evaluate_iid_is_sum",
    "Verif.C07_builder_adds_term",
    "Verif.C07_parts"
   ],
   "note": ""
  },
  {
   "property": "C08",
   "status": "proved",
   "theorems": [
    "Verif.C08_normal",
    "Verif.C08_cauchy",
    "Verif.C08_student_t"
   ],
   "note": ""
  },
  {
   "property": "C09",
   "status": "proved",
   "theorems": [
    "Verif.C09_normal_density"
   ],
   "note": ""
  },
  {
   "property": "C10",
   "status": "proved",
   "theorems": [
    "Verif.C10_exponential_density"
   ],
   "note": ""
  },
  {
   "property": "C11",
   "status": "proved",
   "theorems": [
    "Verif.C11_gamma_density"
   ],
   "note": ""
  },
  {
   "property": "C12",
   "status": "proved",
   "theorems": [
    "Verif.C12_beta_density"
   ],
   "note": ""
  },
  {
   "property": "C13",
   "status": "proved",
   "theorems": [
    "Verif.C13_chi_squared_is_gamma"
   ],
   "note": ""
  },
  {
   "property": "C14",
   "status": "proved",
   "theorems": [
    "Verif.C14_cauchy_density"
   ],
   "note": ""
  },
  {
   "property": "C15",
   "status": "proved",
   "theorems": [
    "Verif.C15_student_t_density"
   ],
   "note": ""
  },
  {
   "property": "C16",
   "status": "proved",
   "theorems": [
    "Verif.C16_bernoulli_pmf"
   ],
   "note": ""
  },
  {
   "property": "C17",
   "status": "partial",
   "theorems": [
    "Verif.C17_geometric_pmf_partial",
    "Verif.C17_geometric_one_violated"
   ],
   "note": "Proved for 0<p<1 (trial-counting convention, total mass 1); at p=1, which the constructor accepts, the log-density at k=1 is NaN (C17_geometric_one_violated)."
  },
  {
   "property": "C18",
   "status": "proved",
   "theorems": [
    "Verif.C18_poisson_pmf"
   ],
   "note": ""
  },
  {
   "property": "C19",
   "status": "proved",
   "theorems": [
    "Verif.C19_categorical_pmf",
    "Verif.C19_num_categories"
   ],
   "note": ""
  },
  {
   "property": "C20",
   "status": "partial",
   "theorems": [
    "Verif.C20_binomial_pmf_partial",
    "Verif.C20_binomial_violated"
   ],
   "note": "The exponential-family form and the log-density disagree: the log-density omits the binomial coefficient, refuted by C20_binomial_violated; the partial theorem gives the exact value returned."
  },
  {
   "property": "C21",
   "status": "partial",
   "theorems": [
    "Verif.C21_negative_binomial_pmf_partial",
    "Verif.C21_negative_binomial_violated"
   ],
   "note": "The log-density sums to p^(r-1) rather than 1 (C21_negative_binomial_violated); the partial theorem gives the exact value returned."
  },
  {
   "property": "C22",
   "status": "partial",
   "theorems": [
    "Verif.C22_continuous_constructors_partial",
    "Verif.C22_discrete_constructors",
    "Verif.C22_categorical_constructor",
    "Verif.C22_nan_accepted_violated",
    "Verif.C22_defaults"
   ],
   "note": "Every documented range is enforced for all finite and infinite inputs; NaN locations and a zero scale slip through (C22_nan_accepted_violated)."
  },
  {
   "property": "C23",
   "status": "proved",
   "theorems": [
    "Verif.C23_support_continuous",
    "Verif.C23_support_discrete",
    "Verif.C23_support_weighted"
   ],
   "note": ""
  },
  {
   "property": "C24",
   "status": "partial",
   "theorems": [
    "Verif.C24_continuous_agree",
    "Verif.C24_discrete_agree_partial",
    "Verif.C24_violated"
   ],
   "note": "Exact for Normal, StdNormal, Gamma, Beta, ChiSquared, interior Bernoulli; within 1e-12 for Poisson and within 2e-10 for Categorical; refuted for Exponential, Geometric, Binomial, NegativeBinomial and boundary Bernoulli (C24_violated)."
  },
  {
   "property": "C25",
   "status": "partial",
   "theorems": [
    "Verif.C25_round_trip_partial",
    "Verif.C25_natural_round_trip",
    "Verif.C25_violated"
   ],
   "note": "Identity in both directions for the families listed in the theorem; Binomial and NegativeBinomial always panic, ChiSquared and StdNormal ignore parameters (C25_violated)."
  },
  {
   "property": "C26",
   "status": "partial",
   "theorems": [
    "Verif.C26_continuous",
    "Verif.C26_discrete_partial",
    "Verif.C26_violated"
   ],
   "note": "Exact for Normal, StdNormal, Gamma, Beta, ChiSquared, Bernoulli, Binomial, Categorical; within 2e-12 for Poisson; refuted for Exponential, Geometric and NegativeBinomial (C26_violated)."
  },
  {
   "property": "C27",
   "status": "partial",
   "theorems": [
    "Verif.C27_continuous_moments",
    "Verif.C27_discrete_moments_partial",
    "Verif.C27_violated",
    "Verif.C27_negative_binomial_exchanged",
    "Verif.C27_gamma_scale"
   ],
   "note": "Mean and variance proved for Normal, Exponential, Gamma, Beta, ChiSquared, Bernoulli, Geometric (p<1), Categorical and Binomial (exponential-family mass); NegativeBinomial's mean is refuted (C27_violated). The moments reported by NegativeBinomial are those with p and 1-p exchanged (C27_negative_binomial_exchanged)."
  },
  {
   "property": "C28",
   "status": "partial",
   "theorems": [
    "Verif.C28_iid_is_sum_partial",
    "Verif.C28_iid_laws",
    "Verif.C28_builder_agrees_partial",
    "Verif.C28_boundary_violated",
    "Verif.C28_fallback"
   ],
   "note": "Sum law proved for all eleven array-statistic families at interior parameters and every sample list; at boundary probabilities NaN arises (C28_boundary_violated)."
  },
  {
   "property": "C29",
   "status": "proved",
   "theorems": [
    "Verif.C29_iid_support",
    "Verif.C29_iid_base",
    "Verif.C29_iid_family"
   ],
   "note": ""
  },
  {
   "property": "C30",
   "status": "proved",
   "theorems": [
    "Verif.C30_sum_componentwise",
    "Verif.C30_sum_order",
    "Verif.C30_dot_distributes",
    "Verif.C30_dot_value",
    "Verif.C30_relative_within_family"
   ],
   "note": ""
  },
  {
   "property": "C31",
   "status": "partial",
   "theorems": [
    "Verif.C31_closure_is_exp_fam",
    "Verif.C31_closure_is_log_density_partial",
    "Verif.C31_closure_wrt_partial",
    "Verif.C31_static_inline",
    "Verif.C31_violated"
   ],
   "note": "Closure equals the exponential-family log-density in every arithmetic, and the plain log-density where C24 holds; refuted for Exponential, for IID wrappers with more than one draw, and for Categorical outside the support (C31_violated)."
  },
  {
   "property": "C32",
   "status": "proved",
   "theorems": [
    "Verif.C32_product_density",
    "Verif.C32_product_mass",
    "Verif.C32_nested_product",
    "Verif.C32_normal_poisson_mass"
   ],
   "note": ""
  },
  {
   "property": "C33",
   "status": "partial",
   "theorems": [
    "Verif.C33_log_transform",
    "Verif.C33_exp_transform",
    "Verif.C33_linear_transform",
    "Verif.C33_logit_transform",
    "Verif.C33_log_normal",
    "Verif.C33_off_image_violated"
   ],
   "note": "Change of variables proved for all four transforms and every proper base measure on the image; off the image the exp pushforward reports NaN while claiming support (C33_off_image_violated)."
  },
  {
   "property": "C34",
   "status": "partial",
   "theorems": [
    "Verif.C34_mixture_density_partial",
    "Verif.C34_mixture_mass",
    "Verif.C34_negative_weight_violated"
   ],
   "note": "Proved for nonnegative weights and proper components; negative weights, accepted by the constructor, give NaN (C34_negative_weight_violated)."
  },
  {
   "property": "C35",
   "status": "proved",
   "theorems": [
    "Verif.C35_exp_arguments_nonpositive",
    "Verif.C35_bounds",
    "Verif.C35_perm_shift",
    "Verif.C35_special_values"
   ],
   "note": ""
  },
  {
   "property": "C36",
   "status": "proved",
   "theorems": [
    "Verif.C36_new",
    "Verif.C36_uniform",
    "Verif.C36_mixture",
    "Verif.C36_in_support",
    "Verif.C36_uniform_mixture"
   ],
   "note": ""
  },
  {
   "property": "C37",
   "status": "partial",
   "theorems": [
    "Verif.C37_linear_map",
    "Verif.C37_linear_jacobian_partial",
    "Verif.C37_componentwise_map",
    "Verif.C37_componentwise_jacobian_partial",
    "Verif.C37_violated"
   ],
   "note": "The map is A x + b for all sizes; the Jacobian is always reported as 0, right only for |det| = 1 (C37_violated). Componentwise transforms: the map is applied to every coordinate; their reported Jacobian 0 is right exactly when the product of the derivatives has absolute value 1."
  },
  {
   "property": "C38",
   "status": "proved",
   "theorems": [
    "Verif.C38_log_factorial_accurate",
    "Verif.C38_factorial_measure_density"
   ],
   "note": ""
  },
  {
   "property": "C39",
   "status": "proved",
   "theorems": [
    "Verif.C39_binomial_coefficient",
    "Verif.C39_binomial_mass",
    "Verif.C39_negative_binomial_coefficient"
   ],
   "note": ""
  },
  {
   "property": "C40",
   "status": "proved",
   "theorems": [
    "Verif.C40_nested_weights",
    "Verif.C40_weighted_mass",
    "Verif.C40_integral_density",
    "Verif.C40_integral_compose",
    "Verif.C40_primitive",
    "Verif.C40_dirac_support"
   ],
   "note": ""
  },
  {
   "property": "C41",
   "status": "proved",
   "theorems": [
    "Verif.C41_evaluate_value",
    "Verif.C41_evaluate_only_value",
    "Verif.C41_error_iff_undefined",
    "Verif.C41_zero_factor_hides",
    "Verif.C41_errors_truthful"
   ],
   "note": ""
  },
  {
   "property": "C42",
   "status": "proved",
   "theorems": [
    "Verif.C42_variables",
    "Verif.C42_evaluate_depends_on_variables"
   ],
   "note": ""
  },
  {
   "property": "C43",
   "status": "partial",
   "theorems": [
    "Verif.C43_single_var_agrees_partial",
    "Verif.C43_single_var_value",
    "Verif.C43_single_var_success",
    "Verif.C43_zero_factor_violated"
   ],
   "note": "Proved for every expression without a literal zero factor (value and error alike), and whenever the expression has a value; a literal zero factor makes evaluate hide errors that evaluate_single_var reports (C43_zero_factor_violated)."
  },
  {
   "property": "C44",
   "status": "partial",
   "theorems": [
    "Verif.C44_linear",
    "Verif.C44_polynomial",
    "Verif.C44_smart_value",
    "Verif.C44_smart_agrees_partial",
    "Verif.C44_infinite_argument_violated"
   ],
   "note": "Proved for every finite argument; at an infinite argument the linear path returns NaN (C44_infinite_argument_violated)."
  },
  {
   "property": "C45",
   "status": "proved",
   "theorems": [
    "Verif.C45_batch",
    "Verif.C45_batch_vars",
    "Verif.C45_grid"
   ],
   "note": ""
  },
  {
   "property": "C46",
   "status": "partial",
   "theorems": [
    "Verif.C46_optimized_agrees_partial",
    "Verif.C46_other_variables_are_zero",
    "Verif.C46_violated"
   ],
   "note": "Proved for expressions whose only variable is the named one; other variables are silently read as 0 (C46_violated)."
  },
  {
   "property": "C47",
   "status": "partial",
   "theorems": [
    "Verif.C47_simplify_value_partial",
    "Verif.C47_simplify_evaluate_partial",
    "Verif.C47_sqrt_square_violated",
    "Verif.C47_power_power_violated",
    "Verif.C47_ln_square_violated",
    "Verif.C47_log_density_simplify_partial",
    "Verif.C47_recorded_names_stale"
   ],
   "note": "Proved for sign-regular expressions (logarithm, root and power bases positive, or integer literal exponents); refuted by sqrt(x^2), (x^2)^0.5 and ln(x^2) at x=-1."
  },
  {
   "property": "C48",
   "status": "proved",
   "theorems": [
    "Verif.C48_operations",
    "Verif.C48_complexity",
    "Verif.C48_variables"
   ],
   "note": ""
  },
  {
   "property": "C49",
   "status": "partial",
   "theorems": [
    "Verif.C49_iteration_reaches_fixed_point",
    "Verif.C49_fixed_point_stable_partial",
    "Verif.C49_idempotent_violated"
   ],
   "note": "Refuted by 0-(-y) (C49_idempotent_violated); proved: iteration reaches a fixed point within four passes per node."
  },
  {
   "property": "C50",
   "status": "partial",
   "theorems": [
    "Verif.C50_simplify_cached_partial",
    "Verif.C50_inf_violated"
   ],
   "note": "Proved for expressions whose names are identifiers other than inf/NaN, under any interleaving including clears; a variable named inf is confused with the literal infinity (C50_inf_violated)."
  },
  {
   "property": "C51",
   "status": "partial",
   "theorems": [
    "Verif.C51_evaluate_cached_partial",
    "Verif.C51_errors_not_cached",
    "Verif.C51_collision_violated"
   ],
   "note": "Proved for the same expressions, for a debug text of the variable map that determines the map; the collisions of C50 give wrong values here too (C51_collision_violated)."
  },
  {
   "property": "C52",
   "status": "proved",
   "theorems": [
    "Verif.C52_counts",
    "Verif.C52_counts_with_clears",
    "Verif.C52_hit_rates",
    "Verif.C52_finished_is_cached",
    "Verif.C52_clear_zeroes_counters",
    "Verif.C52_clear_empties",
    "Verif.C52_counts_since_clear"
   ],
   "note": ""
  },
  {
   "property": "C53",
   "status": "partial",
   "theorems": [
    "Verif.C53_no_parameter_left",
    "Verif.C53_variables_override",
    "Verif.C53_single_overrides",
    "Verif.C53_substitute_value",
    "Verif.C53_substitute_evaluate_partial",
    "Verif.C53_zero_parameter_violated"
   ],
   "note": "No parameter is left; values agree for all finite parameters; exact agreement including errors for nonzero finite parameters; a zero parameter hides errors (C53_zero_parameter_violated)."
  },
  {
   "property": "C54",
   "status": "partial",
   "theorems": [
    "Verif.C54_display_injective",
    "Verif.C54_python_injective",
    "Verif.C54_inf_violated",
    "Verif.C54_latex_violated"
   ],
   "note": "display and to_python are injective for identifier names other than inf/NaN; a variable named inf prints like the literal infinity, and the LaTeX text is ambiguous (witnesses). The reading of the LaTeX text is C105."
  },
  {
   "property": "C55",
   "status": "proved",
   "theorems": [
    "Verif.C55_normal_log_pdf",
    "Verif.C55_normal_log_pdf_bad_scale",
    "Verif.C55_polynomial",
    "Verif.C55_gaussian_kernel",
    "Verif.C55_logistic",
    "Verif.C55_softplus",
    "Verif.C55_quadratic_term",
    "Verif.C55_linear_term",
    "Verif.C55_log_normal_constant",
    "Verif.C55_quadratic_and_constant"
   ],
   "note": ""
  },
  {
   "property": "C56",
   "status": "partial",
   "theorems": [
    "Verif.Egglog.C56_rules_partial",
    "Verif.Egglog.C56_rules_violated",
    "Verif.Egglog.C56_optimize_partial",
    "Verif.Egglog.C56_sqrt_square_violated",
    "Verif.Egglog.C56_reuse_violated"
   ],
   "note": "57 of the 59 rules preserve every value; the other two are refuted (C56_rules_violated). Given a faithful egglog engine, every call in every session preserves the value at assignments with safe powers where all expressions of the session are defined; refuted in general: sqrt(x^2) becomes x (C56_sqrt_square_violated), and an undefined expression given earlier spoils later calls (C56_reuse_violated)."
  },
  {
   "property": "C57",
   "status": "partial",
   "theorems": [
    "Verif.Egglog.C57_roundtrip_partial",
    "Verif.Egglog.C57_sqrt_violated",
    "Verif.Egglog.C57_constants",
    "Verif.Egglog.C57_constant_violated"
   ],
   "note": "Proved for expressions without square roots, with names free of quotation marks, backslashes and parentheses, and literals of one decimal; square roots never survive (C57_sqrt_violated) and exactly the multiples of 0.1 survive (C57_constants, C57_constant_violated)."
  },
  {
   "property": "C58",
   "status": "partial",
   "theorems": [
    "Verif.Egglog.C58_total_partial",
    "Verif.Egglog.C58_fallback",
    "Verif.Egglog.C58_panics_violated"
   ],
   "note": "Fallback proved for every engine and every answer; every call of a session returns an expression for names free of quotation marks, backslashes and parentheses; a name with a closing parenthesis and a space makes the parser panic (C58_panics_violated)."
  },
  {
   "property": "C59",
   "status": "proved",
   "theorems": [
    "Verif.C59_compiles_iff",
    "Verif.C59_unknown_variable",
    "Verif.C59_computes",
    "Verif.C59_tagless_compiles_iff",
    "Verif.C59_tagless_unknown_variable",
    "Verif.C59_tagless_computes",
    "Verif.C59_tagless_order_irrelevant",
    "Verif.C59_shadowing",
    "Verif.C59_algebraic_exact"
   ],
   "note": ""
  },
  {
   "property": "C60",
   "status": "proved",
   "theorems": [
    "Verif.C60_accuracy",
    "Verif.C60_range",
    "Verif.C60_out_of_range_violated",
    "Verif.C60_wrap_examples",
    "Verif.C60_traps_violated"
   ],
   "note": "Error at most 2.9e-12 on the stated range. Outside it: C60_out_of_range_violated (negative results, e.g. at -800 and 800) and C60_traps_violated (NaN, infinities and huge numbers trap)."
  },
  {
   "property": "C61",
   "status": "proved",
   "theorems": [
    "Verif.C61_split",
    "Verif.C61_accuracy",
    "Verif.C61_one",
    "Verif.C61_domain_violated",
    "Verif.C61_negative_violated"
   ],
   "note": "Error at most 3.7e-12 on all positive normal doubles. Outside the domain no error is reported: C61_domain_violated, C61_negative_violated."
  },
  {
   "property": "C62",
   "status": "proved",
   "theorems": [
    "Verif.C62_sin",
    "Verif.C62_cos"
   ],
   "note": ""
  },
  {
   "property": "C63",
   "status": "partial",
   "theorems": [
    "Verif.C63_signature_arity",
    "Verif.C63_scalar_calls",
    "Verif.C63_call_domains",
    "Verif.C63_call_batch_violated",
    "Verif.C63_call_batch_undefined",
    "Verif.C63_call_batch_domains"
   ],
   "note": "Signature arity and the three scalar call methods proved for all compiled functions; call_batch calls a function of floats with pointers and lengths, so it never returns a number (C63_call_batch_violated, C63_call_batch_undefined)."
  },
  {
   "property": "C64",
   "status": "partial",
   "theorems": [
    "Verif.C64_compiles_iff",
    "Verif.C64_compiled_value",
    "Verif.C64_custom_partial",
    "Verif.C64_violated",
    "Verif.C64_evaluate",
    "Verif.C64_parameter_overridden",
    "Verif.C64_compile_custom_jit_partial"
   ],
   "note": "Proved when the alphabetically first variable is the data variable and every other variable is in the parameter table; otherwise compilation fails or the parameter is overridden by the argument (C64_violated, C64_parameter_overridden). What happens in every case is characterised exactly: compilation succeeds iff every name but the alphabetically first is in the table and otherwise the error names a missing one (C64_compiles_iff), and the compiled function is the expression as a function of the alphabetically first name (C64_compiled_value)."
  },
  {
   "property": "C65",
   "status": "partial",
   "theorems": [
    "Verif.C65_interpreters_agree",
    "Verif.C65_pretty_print",
    "Verif.C65_pretty_text_determines",
    "Verif.C65_trait_var_violated",
    "Verif.C65_collect_variables",
    "Verif.C65_count_constants",
    "Verif.C65_helpers_parametric",
    "Verif.C65_patterns_parametric",
    "Verif.C65_statistical_helpers"
   ],
   "note": "Proved for every program that takes its inputs as arguments (direct value = recorded computation's value; pretty text determines the function); refuted for programs that call the trait's var, which direct evaluation reads as 0 (C65_trait_var_violated)."
  },
  {
   "property": "C66",
   "status": "partial",
   "theorems": [
    "Verif.C66_dot_product_panics_iff",
    "Verif.C66_dot_product",
    "Verif.C66_dot_product_array",
    "Verif.C66_exp_fam_log_density",
    "Verif.C66_iid_exp_fam_log_density",
    "Verif.C66_log_density_panics_iff",
    "Verif.C66_sum_sufficient_stats",
    "Verif.C66_sum_sufficient_stats_panics_iff",
    "Verif.C66_mismatch_violated",
    "Verif.C66_sum_stats_array",
    "Verif.C66_sum_stats_array_panics_iff",
    "Verif.C66_log_sum_exp"
   ],
   "note": "All sums and panics of dot_product and the log-densities proved for every length; sum_sufficient_stats reports only shorter rows and cuts longer ones, sum_stats_array the reverse (exact iff theorems; C66_mismatch_violated)."
  },
  {
   "property": "C67",
   "status": "partial",
   "theorems": [
    "Verif.C67_normal_pattern",
    "Verif.C67_standard_normal_pattern",
    "Verif.C67_cauchy_pattern",
    "Verif.C67_exponential_pattern_partial",
    "Verif.C67_exponential_pattern_violated",
    "Verif.C67_exponential_eval",
    "Verif.C67_poisson_pattern_value",
    "Verif.C67_poisson_pattern_violated",
    "Verif.C67_poisson_pattern_zero_violated",
    "Verif.C67_gamma_patterns_violated",
    "Verif.C67_gamma_pattern_partial",
    "Verif.C67_student_t_pattern_partial",
    "Verif.C67_beta_pattern_value",
    "Verif.C67_beta_pattern_violated",
    "Verif.C67_gamma_eval_partial",
    "Verif.C67_gamma_eval_violated"
   ],
   "note": "Exact for normal, standard normal, Cauchy everywhere and exponential on its support; gamma/beta/Student-t always panic with the library's gamma_function (given a correct one: gamma and t right, beta off by the square of the beta function); Poisson right only at k=1,2; exponential positive off its support."
  },
  {
   "property": "C68",
   "status": "proved",
   "theorems": [
    "Verif.C68_expression_variant_agrees",
    "Verif.C68_horner_expr",
    "Verif.C68_horner",
    "Verif.C68_multiplications"
   ],
   "note": ""
  },
  {
   "property": "C69",
   "status": "proved",
   "theorems": [
    "Verif.C69_horner_derivative"
   ],
   "note": ""
  },
  {
   "property": "C70",
   "status": "proved",
   "theorems": [
    "Verif.C70_from_roots_value",
    "Verif.C70_from_roots_zero_iff"
   ],
   "note": ""
  },
  {
   "property": "C71",
   "status": "proved",
   "theorems": [
    "Verif.C71_normal_likelihood",
    "Verif.C71_bad_scale",
    "Verif.C71_normal_prior",
    "Verif.C71_posterior",
    "Verif.C71_posterior_errors",
    "Verif.C71_normal_normal_posterior"
   ],
   "note": ""
  },
  {
   "property": "C72",
   "status": "proved",
   "theorems": [
    "Verif.C72_panics_iff",
    "Verif.C72_mixture_value",
    "Verif.C72_empty",
    "Verif.C72_all_weights_zero",
    "Verif.C72_mixture_normalised",
    "Verif.C72_mixture_old",
    "Verif.C72_entry_points_agree"
   ],
   "note": ""
  },
  {
   "property": "C73",
   "status": "proved",
   "theorems": [
    "Verif.C73_hierarchical_normal",
    "Verif.C73_tau_separates"
   ],
   "note": ""
  },
  {
   "property": "C74",
   "status": "partial",
   "theorems": [
    "Verif.C74_history",
    "Verif.C74_failed_compile",
    "Verif.C74_never_returns_violated"
   ],
   "note": "Slots, None before compilation, last successful compilation wins and failed compilations change nothing: proved for all histories; but no evaluation ever returns a number because of call_batch (C74_never_returns_violated)."
  },
  {
   "property": "C75",
   "status": "partial",
   "theorems": [
    "Verif.C75_last_registration_wins",
    "Verif.C75_registered_pattern_used",
    "Verif.C75_auto_always_fails_violated"
   ],
   "note": "Last registration wins for all histories and a registered pattern is used; auto_jit and auto_symbolic fail for every type because they use an empty registry (C75_auto_always_fails_violated)."
  },
  {
   "property": "C76",
   "status": "partial",
   "theorems": [
    "Verif.C76_int_to_f64",
    "Verif.C76_ranges",
    "Verif.C76_int_to_f64_exact",
    "Verif.C76_int_to_int_partial",
    "Verif.C76_int_identity_violated",
    "Verif.C76_f64_to_int",
    "Verif.C76_special_to_int",
    "Verif.C76_float_to_float",
    "Verif.C76_float_constant",
    "Verif.C76_float_constant_fallback",
    "Verif.C76_double_rounding_violated",
    "Verif.C76_any_type",
    "Verif.C76_default"
   ],
   "note": "Rounding to nearest, exactness, truncation and fallback proved for every input; same-type 64-bit integer conversion goes through f64 and loses values above 2^53 (C76_int_identity_violated), and f64 constants are rounded twice on the way to f32 (C76_double_rounding_violated)."
  },
  {
   "property": "C77",
   "status": "proved",
   "theorems": [
    "Verif.C77_mutual_exclusion",
    "Verif.C77_no_deadlock",
    "Verif.C77_all_calls_return"
   ],
   "note": ""
  },
  {
   "property": "C78",
   "status": "partial",
   "theorems": [
    "Verif.C78_python_partial",
    "Verif.C78_reading",
    "Verif.C78_negated_base_violated",
    "Verif.C78_negative_literal_violated",
    "Verif.C78_reserved_word_violated",
    "Verif.C78_infinity_violated"
   ],
   "note": "Proved (unique reading, same value at every assignment) when no power has a negated or negative literal base, names are identifiers that are not reserved and literals finite; the reading is characterised in general (C78_reading). Refuted: (-x)^2 is read as -(x^2), (-3)^2 likewise, a variable named lambda has no reading, infinity is read as a name."
  },
  {
   "property": "C79",
   "status": "proved",
   "theorems": [
    "Verif.C79_operators",
    "Verif.C79_methods",
    "Verif.C79_conversions"
   ],
   "note": ""
  },
  {
   "property": "C80",
   "status": "proved",
   "theorems": [
    "Verif.C80_static_normal",
    "Verif.C80_static_exponential",
    "Verif.C80_unchecked"
   ],
   "note": ""
  },
  {
   "property": "C81",
   "status": "partial",
   "theorems": [
    "Verif.C81_auto_compiles",
    "Verif.C81_auto_single_partial",
    "Verif.C81_auto_unusable_violated",
    "Verif.C81_auto_order_violated",
    "Verif.C81_explicit_entry_points",
    "Verif.C81_signature_entry_points",
    "Verif.C81_signature_compiles_iff"
   ],
   "note": "Explicit entry points and automatic compilation with one variable proved; with no or several variables no call returns a number, and the argument order depends on hash iteration (C81_auto_unusable_violated, C81_auto_order_violated)."
  },
  {
   "property": "C82",
   "status": "proved",
   "theorems": [
    "Verif.C82_distribution_eval",
    "Verif.C82_exp_fam_eval",
    "Verif.C82_trait_var",
    "Verif.C82_direct_var_is_zero"
   ],
   "note": ""
  },
  {
   "property": "C83",
   "status": "partial",
   "theorems": [
    "Verif.C83_survival_partial",
    "Verif.C83_beta_partial",
    "Verif.C83_erfc_partial",
    "Verif.C83_all_panic_violated"
   ],
   "note": "The default formulas are correct given a correct cdf, Gamma function and erf; as shipped every one of the functions panics on every interpreter and argument (C83_all_panic_violated)."
  },
  {
   "property": "C84",
   "status": "partial",
   "theorems": [
    "Verif.C84_returns_value_twice",
    "Verif.C84_correct_iff_partial",
    "Verif.C84_gradient_violated"
   ],
   "note": "value_and_grad returns the value twice, so the pair is right exactly where the derivative equals the value; refuted at the standard normal (C84_gradient_violated)."
  },
  {
   "property": "C85",
   "status": "partial",
   "theorems": [
    "Verif.C85_panics_are_not_cached",
    "Verif.C85_reentrant_violated"
   ],
   "note": "Panicking densities proved for all histories; a density that uses its own cached density always panics (C85_reentrant_violated)."
  },
  {
   "property": "C86",
   "status": "partial",
   "theorems": [
    "Verif.C86_compile_jit_violated",
    "Verif.C86_error_names_kind"
   ],
   "note": "compile_jit always returns an error naming the distribution, for all nine distributions and all parameters (C86_compile_jit_violated); it does not panic."
  },
  {
   "property": "C87",
   "status": "partial",
   "theorems": [
    "Verif.C87_latest_wins",
    "Verif.C87_order_violated"
   ],
   "note": "Last definition wins: proved for all histories; evaluation_order stays empty (C87_order_violated)."
  },
  {
   "property": "C88",
   "status": "proved",
   "theorems": [
    "Verif.C88_normal",
    "Verif.C88_overflow_violated",
    "Verif.C88_exponential"
   ],
   "note": "Bounds 64u and 16u. The difference x - mu itself may overflow although the density is moderate: C88_overflow_violated."
  },
  {
   "property": "C89",
   "status": "partial",
   "theorems": [
    "Verif.C89_cauchy_partial",
    "Verif.C89_cauchy_violated"
   ],
   "note": "Bound 256u or minus infinity when the squared score overflows; the heavy tail makes that wrong: C89_cauchy_violated (standard Cauchy at 2^600)."
  },
  {
   "property": "C90",
   "status": "partial",
   "theorems": [
    "Verif.C90_normal_partial",
    "Verif.C90_nan_violated",
    "Verif.C90_cancellation_violated"
   ],
   "note": "Bound 128u relative to the squares of point and mean in standard deviations, for moderate sizes; refuted in general: NaN at the mean 2^600 (C90_nan_violated) and complete cancellation at 2^27 (C90_cancellation_violated)."
  },
  {
   "property": "C91",
   "status": "proved",
   "theorems": [
    "Verif.C91_sum",
    "Verif.C91_sum_finite",
    "Verif.C91_normal_iid",
    "Verif.C91_iid_fallback"
   ],
   "note": "Sum error (1+u)^n-1 for any samples; Normal joint log-density within (100+12n)u; generic bound for the IID fallback from pointwise accuracy."
  },
  {
   "property": "C92",
   "status": "partial",
   "theorems": [
    "Verif.C92_uniform_partial",
    "Verif.C92_uniform_violated",
    "Verif.C92_mixture_partial",
    "Verif.C92_mixture_violated",
    "Verif.C92_overflow_violated",
    "Verif.C92_accepted"
   ],
   "note": "Accepted in double precision for up to 65536 equal weights and for any two weights summing to at most 2^1023; refuted in single precision (ten equal weights, or 0.1 and 0.2) and for two weights of 2^1023."
  },
  {
   "property": "C93",
   "status": "proved",
   "theorems": [
    "Verif.C93_logSumExp",
    "Verif.C93_mixture",
    "Verif.C93_normal_mixture"
   ],
   "note": "log-sum-exp within 18nu absolutely and u relatively; mixtures and mixtures of Normals as corollaries."
  },
  {
   "property": "C94",
   "status": "partial",
   "theorems": [
    "Verif.C94_evaluate",
    "Verif.C94_evaluate_accurate",
    "Verif.C94_single_var_accurate",
    "Verif.C94_smart",
    "Verif.C94_smart_overflow_violated",
    "Verif.C94_simplify_violated"
   ],
   "note": "Error ((1+u)^N-1) relative to the size, and finiteness, for the arithmetic operators (ln, exp, sqrt, trigonometric functions, quotients and powers: see C108); refuted: evaluate_smart returns NaN where evaluate is exact (C94_smart_overflow_violated), simplify changes +infinity to 1000 (C94_simplify_violated)."
  },
  {
   "property": "C95",
   "status": "partial",
   "theorems": [
    "Verif.C95_horner",
    "Verif.C95_dot_product",
    "Verif.C95_exponential_pattern",
    "Verif.C95_logistic",
    "Verif.C95_softplus_partial",
    "Verif.C95_softplus_violated",
    "Verif.C95_log_sum_exp_violated",
    "Verif.C95_log_sum_exp_partial",
    "Verif.C95_softplus_relative_violated"
   ],
   "note": "Horner, inner products and logistic for all inputs; softplus and log_sum_exp inside the range of the format, refuted outside it (+infinity at 1000) and relatively (0 at -50)."
  },
  {
   "property": "C96",
   "status": "partial",
   "theorems": [
    "Verif.C96_split",
    "Verif.C96_ln_partial",
    "Verif.C96_ln_domain_violated",
    "Verif.C96_exp_partial",
    "Verif.C96_exp_wrap_violated",
    "Verif.C96_exp_traps_violated",
    "Verif.C96_sin_partial",
    "Verif.C96_cos_partial",
    "Verif.C96_pow_partial"
   ],
   "note": "ln at every positive normal double, exp from -707 to 709, sin and cos up to 10 in absolute value, powers with results between exp(-700) and exp(700); refuted outside: exp is negative from 712 to 2000 in absolute value, NaN and infinities stop the process."
  },
  {
   "property": "C97",
   "status": "partial",
   "theorems": [
    "Verif.C97_primitive",
    "Verif.C97_distribution_roots",
    "Verif.C97_wrappers",
    "Verif.C97_pushforward_image",
    "Verif.C97_iid_roots",
    "Verif.C97_mixture_root",
    "Verif.C97_default_base_partial",
    "Verif.C97_default_base_violated",
    "Verif.C97_coefficient_support"
   ],
   "note": "The value without `wrt` is stated for a builder whose two fields lie at different addresses, and refuted for a zero-sized root that shares the address of the measure (C97_default_base_violated); everything else is proved in full."
  },
  {
   "property": "C98",
   "status": "proved",
   "theorems": [
    "Verif.C98_shared_root",
    "Verif.C98_not_normalised"
   ],
   "note": "Also shown: the product of two densities on the same space need not be normalised (C98_not_normalised)."
  },
  {
   "property": "C99",
   "status": "partial",
   "theorems": [
    "Verif.C99_complexity",
    "Verif.C99_recorded",
    "Verif.C99_recorded_arithmetic_partial",
    "Verif.C99_recorded_violated",
    "Verif.C99_arithmetic_partial",
    "Verif.C99_code_linear",
    "Verif.C99_code_linear_sharp",
    "Verif.C99_elementary_violated",
    "Verif.C99_counts_violated",
    "Verif.C99_speedup"
   ],
   "note": "Instruction count exact up to one per argument plus two for arithmetic expressions; code at most 109 instructions per node for every expression, and this factor is reached; speed-up between 15 and 100 and monotone; refuted for the counts of other expressions and for embedded constants (C99_counts_violated). Recorded computations: the count is the number of nodes plus two per function call, exact up to the inputs for arithmetic (C99_recorded_arithmetic_partial), refuted for ln(x) (C99_recorded_violated)."
  },
  {
   "property": "C100",
   "status": "partial",
   "theorems": [
    "Verif.C100_gamma_partial",
    "Verif.C100_chi_squared_partial",
    "Verif.C100_beta_partial",
    "Verif.C100_student_t_partial",
    "Verif.C100_gamma_nan_violated",
    "Verif.C100_student_t_violated"
   ],
   "note": "Proved when the sizes of the terms add up to at most 2^80 (chi-squared and Student-t: degrees of freedom from 2^-50 on; Student-t: x^2 and x^2/nu at most 2^80). Refuted at the edge of the range: Gamma with shape = rate = 2^1020 gives NaN at its mean (C100_gamma_nan_violated), Student-t at 2^600 gives -inf (C100_student_t_violated). Assumes an accurate ln_gamma (GammaAccurate, shown satisfiable)."
  },
  {
   "property": "C101",
   "status": "partial",
   "theorems": [
    "Verif.C101_bernoulli",
    "Verif.C101_categorical",
    "Verif.C101_geometric_partial",
    "Verif.C101_geometric_violated",
    "Verif.C101_binomial_partial",
    "Verif.C101_negative_binomial_partial",
    "Verif.C101_poisson_partial",
    "Verif.C101_log_factorial"
   ],
   "note": "Bernoulli, categorical and log-factorial: full. Geometric: p < 1 and counts up to 2^prec. Binomial and negative binomial: double precision, log-density plus coefficient measure, counts below 2^53, 0 < p < 1 (the log-density alone has the wrong base, C20/C21). Poisson: rate up to 2^80, counts up to 2^40 with count times roundoff at most 1/2. The size of the count is needed in the geometric bound (C101_geometric_violated: ln(1-p) is computed as 0 for p = 2^-60). Assumes accurate ln and ln_gamma (shown satisfiable)."
  },
  {
   "property": "C102",
   "status": "partial",
   "theorems": [
    "Verif.C102_categorical_partial",
    "Verif.C102_bernoulli_partial",
    "Verif.C102_exponential",
    "Verif.C102_gamma",
    "Verif.C102_beta",
    "Verif.C102_poisson_partial",
    "Verif.C102_geometric_partial",
    "Verif.C102_chi_squared",
    "Verif.C102_overflow_violated",
    "Verif.C102_uniform_partial",
    "Verif.C102_uniform_violated",
    "Verif.C102_accepted",
    "Verif.C102_normal_partial"
   ],
   "note": "Exponential, gamma, beta: full, with exact conditions of acceptance; chi-squared up to 2^90. Categorical: double precision, up to 2^16 log-odds whose exponentials sum to at most 2^1000. Bernoulli: exp(eta) at most 2^(emax-5). Poisson: exp(eta) a normal number. Geometric: eta at most -8u, absolute error. Normal: parameters of moderate size. Refuted beyond: overflow of exp gives a panic or an infinite rate (C102_overflow_violated), Categorical::uniform(10) panics in single precision (C102_uniform_violated)."
  },
  {
   "property": "C103",
   "status": "partial",
   "theorems": [
    "Verif.C103_exponential",
    "Verif.C103_poisson_partial",
    "Verif.C103_gamma_partial",
    "Verif.C103_beta_partial",
    "Verif.C103_shape_violated",
    "Verif.C103_chi_squared_partial",
    "Verif.C103_normal_partial",
    "Verif.C103_bernoulli_partial",
    "Verif.C103_geometric_partial",
    "Verif.C103_bernoulli_violated",
    "Verif.C103_geometric_violated",
    "Verif.C103_categorical_partial",
    "Verif.C103_categorical_violated"
   ],
   "note": "Exponential: exact, for all rates. Gamma, beta: shapes at least the unit roundoff u (exact between 1/2 and 2^prec); chi-squared from 2u to 2^90 (exact between 1 and 2^(prec+1)). Poisson: rates within the normal range, error (4|ln rate|+4)u. Normal: 2^-28 <= sigma <= 2^28, |mu| <= 2^40. Bernoulli: 2^-60 <= p < 1. Categorical: double precision, probabilities at least 2^-60, up to 65537 of them (they come back divided by their sum). Geometric: 16u <= p < 1, absolute error. Refuted beyond: shape 2^-60 panics (C103_shape_violated), Bernoulli p = 1 panics (C103_bernoulli_violated), geometric p = 2^-60 never returns a comparable p (C103_geometric_violated), a last category of probability zero panics (C103_categorical_violated)."
  },
  {
   "property": "C104",
   "status": "partial",
   "theorems": [
    "Verif.C104_new",
    "Verif.C104_log_density",
    "Verif.C104_dimension",
    "Verif.C104_support_partial",
    "Verif.C104_support_violated",
    "Verif.C104_round_trip",
    "Verif.C104_standard",
    "Verif.C104_law",
    "Verif.C104_total_mass",
    "Verif.C104_moments",
    "Verif.C104_independent",
    "Verif.C104_not_positive_violated",
    "Verif.C104_nan_violated",
    "Verif.C104_not_symmetric_violated"
   ],
   "note": "Everything proved for positive definite matrices of every dimension (exact arithmetic, exact try_inverse and determinant). Refuted: the constructor accepts any invertible matrix; -I in the plane has an unbounded density (C104_not_positive_violated), a negative variance gives NaN (C104_nan_violated), an asymmetric matrix a density of mass 2/sqrt(3) (C104_not_symmetric_violated), in_support accepts points of every dimension although the density panics off the right one (C104_support_violated). The module is commented out of the build in the repository."
  },
  {
   "property": "C105",
   "status": "partial",
   "theorems": [
    "Verif.C105_latex_partial",
    "Verif.C105_one_reading",
    "Verif.C105_sum_factor_violated",
    "Verif.C105_difference_violated",
    "Verif.C105_negated_base_violated",
    "Verif.C105_double_superscript_violated",
    "Verif.C105_long_name_violated",
    "Verif.C105_letter_e_violated"
   ],
   "note": "Unique reading for every text; a reading with the same value at every assignment when names are single letters other than e, literals finite decimals, no sum is a factor or subtracted and every base of a power is a symbol, number, function, root or fraction. Refuted otherwise: (x+y)z is read as x+yz, x-(y-z) as (x-y)-z, (-x)^y as -(x^y), (x^y)^z has no reading, the name ab is read as a times b, e^x with a variable e as the exponential."
  },
  {
   "property": "C106",
   "status": "partial",
   "theorems": [
    "Verif.C106_normal_log_pdf_partial",
    "Verif.C106_posterior_partial",
    "Verif.C106_mixture_partial",
    "Verif.C106_small_scale_violated",
    "Verif.C106_mixture_violated",
    "Verif.C106_hierarchical_partial"
   ],
   "note": "Normal log-density, posterior, hierarchical model and mixture accurate when the squares of scale and distance (and, for the mixture, the density itself) are in the range of the format. Refuted outside: a scale of 2^-600 gives a division by zero or a value off by 500000 (C106_small_scale_violated); a one-component mixture 100 standard deviations away gives InvalidLogarithm or a value off by 3800 (C106_mixture_violated)."
  },
  {
   "property": "C107",
   "status": "partial",
   "theorems": [
    "Verif.C107_accepted_partial",
    "Verif.C107_meaning",
    "Verif.C107_refused_violated"
   ],
   "note": "Whatever is accepted has one reading, with the value of the expression built, in every arithmetic (C107_meaning). Accepted are exactly the formulas with at most one operation on names and numbers (C107_accepted_partial); x + y + z, (x + y) * z, 2 * ln(x), ln(x + y) and -ln(x) do not compile (C107_refused_violated)."
  },
  {
   "property": "C108",
   "status": "proved",
   "theorems": [
    "Verif.C108_evaluate",
    "Verif.C108_single_var"
   ],
   "note": "The conditions (WellConditioned) and the bound (errorBound) are computed along the expression; assumes accurate library functions (AllAccurate, shown satisfiable)."
  },
  {
   "property": "C109",
   "status": "proved",
   "theorems": [
    "Verif.C109_compiled",
    "Verif.C109_agrees"
   ],
   "note": "The conditions (JitConditioned) and the bound (jitErrorBound) are computed along the expression; FaithfulDouble and SqrtAccurate (AllAccurate for the interpreter) are assumed, both shown satisfiable. Outside the ranges the approximations fail: see C60, C96."
  },
  {
   "property": "C110",
   "status": "partial",
   "theorems": [
    "Verif.C110_accurate",
    "Verif.C110_exact",
    "Verif.C110_antisymm",
    "Verif.C110_support",
    "Verif.C110_self_partial",
    "Verif.C110_self_violated",
    "Verif.C110_chain",
    "Verif.C110_normal_ratio"
   ],
   "note": "Violated where both log-densities are -inf: C110_self_violated (Exponential with respect to itself at -1 is NaN). Measure and base must be stored at different addresses (Layout.Apart), see C01."
  },
  {
   "property": "C111",
   "status": "partial",
   "theorems": [
    "Verif.C111_normal",
    "Verif.C111_normal_infinite",
    "Verif.C111_normal_symmetric",
    "Verif.C111_normal_iid",
    "Verif.C111_normal_iid_bounded",
    "Verif.C111_iid",
    "Verif.C111_exponential",
    "Verif.C111_cauchy",
    "Verif.C111_cauchy_iid",
    "Verif.C111_student_t",
    "Verif.C111_geometric",
    "Verif.C111_exp_fam_violated",
    "Verif.C111_normal_iid_total",
    "Verif.C111_cauchy_iid_total",
    "Verif.C111_student_t_total",
    "Verif.C111_iid_total"
   ],
   "note": "Violated on the generic exponential-family path: C111_exp_fam_violated (the farther point gets the greater value). Cauchy and Student under LnMonotone (shown satisfiable together with accuracy); The first form of the Student and sum theorems assumes that no value is NaN; the _total forms discharge that for parameters in stated ranges and every number of samples."
  },
  {
   "property": "C112",
   "status": "partial",
   "theorems": [
    "Verif.C112_off_support",
    "Verif.C112_nan_not_in_support",
    "Verif.C112_nan",
    "Verif.C112_infinite",
    "Verif.C112_gamma_infinite_partial",
    "Verif.C112_gamma_violated",
    "Verif.C112_chi_squared_violated",
    "Verif.C112_student_infinite_total",
    "Verif.C112_gamma_infinite_total"
   ],
   "note": "Violated for Gamma with shape >= 1 and chi-squared with k >= 2: NaN at +inf although in_support is true (C112_gamma_violated, C112_chi_squared_violated). Student and Gamma below shape one: provided the log-density is finite at some point, and unconditionally for parameters in a stated range (_total)."
  },
  {
   "property": "C113",
   "status": "partial",
   "theorems": [
    "Verif.C113_special_continuous",
    "Verif.C113_zero_violated",
    "Verif.C113_special_discrete",
    "Verif.C113_location_scale",
    "Verif.C113_transformed",
    "Verif.C113_symmetry",
    "Verif.C113_memoryless",
    "Verif.C113_recurrence"
   ],
   "note": "Violated at 0: Gamma(1, r) and ChiSquared(2) return minus infinity where the exponential returns ln r (C113_zero_violated); everywhere else the identities are proved."
  },
  {
   "property": "C114",
   "status": "proved",
   "theorems": [
    "Verif.C114_posterior",
    "Verif.C114_closed_form",
    "Verif.C114_normalised"
   ],
   "note": ""
  },
  {
   "property": "C115",
   "status": "proved",
   "theorems": [
    "Verif.C115_continuous",
    "Verif.C115_discrete",
    "Verif.C115_ratio"
   ],
   "note": "Bernoulli, binomial and geometric for interior success probabilities (at the boundary iid_log_density is NaN, C28_boundary_violated)."
  },
  {
   "property": "C116",
   "status": "partial",
   "theorems": [
    "Verif.C116_normal",
    "Verif.C116_poisson",
    "Verif.C116_proportion",
    "Verif.C116_gamma",
    "Verif.C116_direct_sum",
    "Verif.C116_exp_fam_violated",
    "Verif.C116_negative_binomial_violated"
   ],
   "note": "iid_log_density for normal, Poisson, Bernoulli, binomial, gamma rate; the direct sum (iid_log_density_fallback) for exponential, geometric, negative binomial. Violated by iid_log_density for exponential and geometric (C116_exp_fam_violated) and for the negative binomial (C116_negative_binomial_violated), because their exponential-family form is not the density (C24)."
  },
  {
   "property": "C117",
   "status": "partial",
   "theorems": [
    "Verif.C117_product",
    "Verif.C117_weighted",
    "Verif.C117_linear",
    "Verif.C117_log_normal",
    "Verif.C117_grouping_violated"
   ],
   "note": "Accuracy, minus infinity and exchange of factors proved; independence of the grouping is violated (C117_grouping_violated, single precision)."
  },
  {
   "property": "C118",
   "status": "partial",
   "theorems": [
    "Verif.C118_continuous_partial",
    "Verif.C118_discrete_partial",
    "Verif.C118_overflow_violated",
    "Verif.C118_categorical"
   ],
   "note": "Proved for parameters in [2^-K, 2^K] with 5K+8 <= emax (relative error of 2 to 16 units). Outside that range the property is violated by intermediate overflow (C118_overflow_violated). Categorical: relative error 4ku of the mean and absolute error 100k^3u of the variance for up to 1/(256u) categories (C118_categorical)."
  },
  {
   "property": "C119",
   "status": "proved",
   "theorems": [
    "Verif.C119_direct",
    "Verif.C119_compiled",
    "Verif.C119_agrees"
   ],
   "note": "Direct evaluation in both formats; compiled evaluation in double precision, which is what the compiler produces."
  },
  {
   "property": "C120",
   "status": "partial",
   "theorems": [
    "Verif.C120_normal",
    "Verif.C120_exponential",
    "Verif.C120_gamma_partial",
    "Verif.C120_gamma_fixed_shape",
    "Verif.C120_beta_partial",
    "Verif.C120_beta_fixed",
    "Verif.C120_chi_squared_partial",
    "Verif.C120_chi_squared_fixed",
    "Verif.C120_cauchy",
    "Verif.C120_gamma_violated",
    "Verif.C120_student_t_violated",
    "Verif.C120_bernoulli",
    "Verif.C120_geometric",
    "Verif.C120_binomial",
    "Verif.C120_negative_binomial",
    "Verif.C120_poisson",
    "Verif.C120_categorical",
    "Verif.C120_normal_exp_fam",
    "Verif.C120_poisson_iid",
    "Verif.C120_chi_squared_violated",
    "Verif.C120_beta_violated",
    "Verif.C120_student_t_partial",
    "Verif.C120_relative",
    "Verif.C120_product",
    "Verif.C120_log_sum_exp",
    "Verif.C120_mixture",
    "Verif.C120_pushforward",
    "Verif.C120_normal_differentiates",
    "Verif.C120_exponential_differentiates",
    "Verif.C120_iid_fallback",
    "Verif.C120_normal_iid",
    "Verif.C120_cauchy_iid",
    "Verif.C120_tagless"
   ],
   "note": "Holds for Normal, Exponential, Cauchy, the discrete distributions and all combinators; for Gamma, Beta and chi-squared in the point and rate only, because the logarithm of the gamma function is computed in f64 (C120_gamma_violated, C120_beta_violated, C120_chi_squared_violated); for Student's t no derivative is returned at all (C120_student_t_violated)."
  },
  {
   "property": "C121",
   "status": "partial",
   "theorems": [
    "Verif.C121_student_t_rounded",
    "Verif.C121_student_t_partial",
    "Verif.C121_log_gamma",
    "Verif.C121_binomial_coefficient",
    "Verif.C121_negative_binomial_coefficient",
    "Verif.C121_gamma",
    "Verif.C121_beta_log_partition_partial"
   ],
   "note": "Rounding once is proved for all inputs (C121_student_t_rounded), log-gamma and coefficients for all inputs; the error of Student's t for degrees of freedom from 2^-50 on and points up to 2^40, the range of C100; the log-partition of Beta for terms up to 2^85."
  },
  {
   "property": "C122",
   "status": "partial",
   "theorems": [
    "Verif.C122_radon_nikodym_partial",
    "Verif.C122_divergence_partial",
    "Verif.C122_not_dominated_partial",
    "Verif.C122_regular",
    "Verif.C122_normal_divergence_partial",
    "Verif.C122_exponential_divergence_partial",
    "Verif.C122_poisson_divergence_partial",
    "Verif.C122_dominating"
   ],
   "note": "Everything proved for operands at different addresses; operands that share an address are reported as equal measures (C04), where the relative log-density is zero whatever the measures are (C02_violated)."
  },
  {
   "property": "C123",
   "status": "partial",
   "theorems": [
    "Verif.C123_continuous",
    "Verif.C123_discrete_partial",
    "Verif.C123_chi_squared_partial",
    "Verif.C123_exponential_violated",
    "Verif.C123_geometric_violated",
    "Verif.C123_chi_squared_violated",
    "Verif.C123_std_normal_violated"
   ],
   "note": "Proved for Normal, Gamma, Beta and Poisson in every direction, Bernoulli for 0<p<1, Categorical with positive probabilities summing to one, chi-squared in the first natural parameter. Violated for every Exponential (log-partition has the wrong sign), every Geometric with p<1 (off by one), chi-squared in the second parameter and the standard normal (from_natural ignores them)."
  },
  {
   "property": "C124",
   "status": "partial",
   "theorems": [
    "Verif.C124_product",
    "Verif.C124_weighted",
    "Verif.C124_mixture_partial",
    "Verif.C124_pushforward",
    "Verif.C124_transforms_partial",
    "Verif.C124_sample",
    "Verif.C124_iid_fallback",
    "Verif.C124_iid_partial",
    "Verif.C124_iid_violated",
    "Verif.C124_lognormal"
   ],
   "note": "Products, weights, integral measures and samples by summed log-densities without restriction; mixtures for non-negative weights (negative ones give NaN, C34_negative_weight_violated); transformed measures on the image (off it the log-density can be NaN, C33_off_image_violated); samples by the exponential-family formula for the families where it is the log-density. Violated for Exponential by that formula (C124_iid_violated: total mass r^(-2n))."
  },
  {
   "property": "C125",
   "status": "partial",
   "theorems": [
    "Verif.C125_normal",
    "Verif.C125_gamma",
    "Verif.C125_chi_squared",
    "Verif.C125_minimum",
    "Verif.C125_poisson",
    "Verif.C125_binomial_partial",
    "Verif.C125_negative_binomial"
   ],
   "note": "Normal, gamma, chi-squared, exponential and Poisson without restriction. The binomial and the negative binomial are taken together with their coefficient base measure (alone, their log-density is not a mass function, C20_binomial_violated, C21_negative_binomial_violated); Bernoulli and binomial for 0 < p < 1 (at the end points the formula 0*ln 0 gives NaN)."
  },
  {
   "property": "C126",
   "status": "partial",
   "theorems": [
    "Verif.C126_continuous",
    "Verif.C126_discrete",
    "Verif.C126_categorical_violated"
   ],
   "note": "All continuous families, Bernoulli, Poisson, geometric and negative binomial without restriction; binomial for 0 < p < 1, where p is determined unless n = 0. Violated for categorical distributions: categories of probability zero at the end are not determined (C126_categorical_violated); exactly those are not, and with equally many categories or none of probability zero the parameters are determined. Binomial and negative binomial are taken with their coefficient base measure."
  },
  {
   "property": "C127",
   "status": "partial",
   "theorems": [
    "Verif.C127_evaluate",
    "Verif.C127_single_var",
    "Verif.C127_batch",
    "Verif.C127_polynomial",
    "Verif.C127_simplify_partial",
    "Verif.C127_smart_violated",
    "Verif.C127_overflow_violated",
    "Verif.C127_rounding_violated"
   ],
   "note": "evaluate, evaluate_single_var, both batch evaluators and evaluate_polynomial without restriction. Simplification for expressions without powers, logarithms and square roots, if the library is exact at exp 0, sin 0, cos 0 and rounds squares correctly. Violated by evaluate_smart, which collects linear coefficients first (C127_smart_violated), and, by simplification of ln(exp x): when something overflows (C127_overflow_violated) and, with every accurate library, at x = 2^-60 where nothing does (C127_rounding_violated)."
  },
  {
   "property": "C128",
   "status": "partial",
   "theorems": [
    "Verif.C128_continuous",
    "Verif.C128_discrete_partial",
    "Verif.C128_finite",
    "Verif.C128_geometric_violated",
    "Verif.C128_binomial_violated"
   ],
   "note": "Normal, exponential, gamma, beta, Cauchy, Student t, chi-squared, Poisson, Bernoulli and categorical at all admissible parameters. Geometric, binomial, negative binomial at probabilities strictly inside (0,1). Violated by the geometric distribution at probability 1, where the point mass at 1 is lost (C128_geometric_violated), and by the binomial distribution at 0 and 1 for every number of trials (C128_binomial_violated)."
  },
  {
   "property": "C129",
   "status": "proved",
   "theorems": [
    "Verif.C129_binomial_poisson",
    "Verif.C129_negative_binomial_poisson",
    "Verif.C129_student_normal",
    "Verif.C129_geometric_exponential"
   ],
   "note": ""
  },
  {
   "property": "C130",
   "status": "partial",
   "theorems": [
    "Verif.C130_normal",
    "Verif.C130_exponential",
    "Verif.C130_cauchy",
    "Verif.C130_gamma_partial",
    "Verif.C130_chi_squared_partial",
    "Verif.C130_beta_partial",
    "Verif.C130_student_partial",
    "Verif.C130_bernoulli",
    "Verif.C130_categorical",
    "Verif.C130_geometric_partial",
    "Verif.C130_geometric_violated",
    "Verif.C130_binomial_partial",
    "Verif.C130_binomial_violated",
    "Verif.C130_negative_binomial",
    "Verif.C130_poisson",
    "Verif.C130_iid",
    "Verif.C130_iid_mass",
    "Verif.C130_combinators",
    "Verif.C130_normal_sample",
    "Verif.C130_normal_iid",
    "Verif.C130_cauchy_iid",
    "Verif.C130_mixture",
    "Verif.C130_normal_mixture"
   ],
   "note": "Normal, exponential, Cauchy, Bernoulli, categorical, Poisson, negative binomial at all accepted finite parameters (counts of 64 bits), and mixtures with nonnegative weights. Gamma, beta, chi-squared, Student t up to a factor 2^20 from overflow (chi-squared and Student t from twice the least positive number on). Violated by the geometric distribution at p = 1 (C130_geometric_violated), the binomial at p = 0 and p = 1 (C130_binomial_violated) and the gamma distribution near overflow (C100_gamma_nan_violated)."
  },
  {
   "property": "C131",
   "status": "partial",
   "theorems": [
    "Verif.C131_law",
    "Verif.C131_sequential",
    "Verif.C131_beta_bernoulli",
    "Verif.C131_beta_binomial",
    "Verif.C131_beta_waiting",
    "Verif.C131_gamma_poisson",
    "Verif.C131_gamma_exponential",
    "Verif.C131_exponential_violated",
    "Verif.C131_gamma_gamma",
    "Verif.C131_gamma_normal",
    "Verif.C131_normal_normal"
   ],
   "note": "All nine conjugate pairs for the sum of direct log-densities, and for iid_log_density where it is the log-density (Bernoulli, binomial, Poisson, gamma, normal). Violated by iid_log_density for exponential data, whose posterior moves the shape the wrong way (C131_exponential_violated, a consequence of C24_violated)."
  },
  {
   "property": "C132",
   "status": "partial",
   "theorems": [
    "Verif.C132_discrete_sum",
    "Verif.C132_discrete_expfam",
    "Verif.C132_maximum",
    "Verif.C132_exponential_violated",
    "Verif.C132_continuous"
   ],
   "note": "Eleven families by the sum of direct log-densities; by iid_log_density for Normal, Gamma, Beta, ChiSquared, Poisson, Bernoulli, Geometric, Binomial, NegativeBinomial; consequences for maxima in C132_maximum. Violated by iid_log_density for Exponential, which is strictly convex (C132_exponential_violated). (Categorical has vector-valued statistics, for which iid_log_density is not available.)"
  },
  {
   "property": "C133",
   "status": "proved",
   "theorems": [
    "Verif.C133_continuous",
    "Verif.C133_counts",
    "Verif.C133_unimodal",
    "Verif.C133_counts_unimodal",
    "Verif.C133_linear",
    "Verif.C133_unconstrained",
    "Verif.C133_mixture_violated"
   ],
   "note": "C133_continuous gives the exact ranges, C133_counts the counts, C133_unimodal and C133_counts_unimodal the absence of valleys, C133_linear and C133_unconstrained the pushforwards; C133_mixture_violated shows that mixing can lose log-concavity."
  },
  {
   "property": "C134",
   "status": "proved",
   "theorems": [
    "Verif.C134_dominance",
    "Verif.C134_thresholds",
    "Verif.C134_relative",
    "Verif.C134_continuous",
    "Verif.C134_counts",
    "Verif.C134_location"
   ],
   "note": "C134_continuous and C134_counts give the exact parameter orders (binomial and negative binomial with their base measure; success probabilities strictly inside the unit interval for geometric and binomial), C134_relative is the form in terms of wrt, C134_dominance and C134_thresholds the consequences, C134_location the location families."
  },
  {
   "property": "C135",
   "status": "proved",
   "theorems": [
    "Verif.C135_closed_forms",
    "Verif.C135_poisson_gamma",
    "Verif.C135_binomial_beta",
    "Verif.C135_negative_binomial",
    "Verif.C135_symmetry",
    "Verif.C135_tail_bounds",
    "Verif.C135_memoryless"
   ],
   "note": "Geometric for p < 1 (at p = 1 its log-density is NaN, C17); binomial and negative binomial with their base measure, the binomial for 0 < p < 1 (C20, C21)."
  },
  {
   "property": "C136",
   "status": "proved",
   "theorems": [
    "Verif.C136_gibbs",
    "Verif.C136_closed_forms",
    "Verif.C136_maximal_real",
    "Verif.C136_maximal_counts",
    "Verif.C136_product",
    "Verif.C136_affine"
   ],
   "note": "Geometric for p < 1 (at p = 1 its log-density is NaN, C17) and Bernoulli for 0 < p < 1; binomial, negative binomial, Poisson and Student t have no elementary closed form and are covered by the general theorems only."
  },
  {
   "property": "C137",
   "status": "proved",
   "theorems": [
    "Verif.C137_pushforwards_compose",
    "Verif.C137_relative_densities",
    "Verif.C137_mixtures",
    "Verif.C137_mixing_commutes",
    "Verif.C137_products"
   ],
   "note": "In exact arithmetic; in floating point the two sides differ by rounding (C117 bounds products, weights and transformed measures, C110 relative log-densities)."
  },
  {
   "property": "C138",
   "status": "proved",
   "theorems": [
    "Verif.C138_poisson_gamma",
    "Verif.C138_student_t",
    "Verif.C138_normal_bernoulli",
    "Verif.C138_poisson_split",
    "Verif.C138_geometric_sum",
    "Verif.C138_beta_fraction"
   ],
   "note": "Binomial and negative binomial are taken with their coefficient base measure, thinning for 0 < p < 1, the geometric sum for p < 1 (C17, C20, C21); the shape of the Gamma rate is an integer because the negative binomial takes only those."
  },
  {
   "property": "C139",
   "status": "partial",
   "theorems": [
    "Verif.C139_probability",
    "Verif.C139_rate",
    "Verif.C139_normal",
    "Verif.C139_almost_surely",
    "Verif.C139_almost_surely_counts",
    "Verif.C139_exponential_violated",
    "Verif.C139_waiting_violated"
   ],
   "note": "Proved for the sum of the log-densities in all nine models, and for the exponential-family joint log-density in the six where it is right; for the exponential the latter makes Bayes' rule inapplicable and for the geometric and negative binomial it settles at a wrong value (C139_exponential_violated, C139_waiting_violated)."
  },
  {
   "property": "C140",
   "status": "partial",
   "theorems": [
    "Verif.C140_recognised",
    "Verif.C140_direct",
    "Verif.C140_continuous",
    "Verif.C140_discrete",
    "Verif.C140_violated",
    "Verif.C140_normal_or_cauchy"
   ],
   "note": "Proved for the sum of the log-densities of any two distributions with different laws (C140_direct), and so for two members of every family and for a normal against a Cauchy; for iid_log_density in normal, gamma, beta, chi-squared, Bernoulli, Poisson and binomial. Discrete families are taken with probabilities strictly between 0 and 1 (positive probabilities for the categorical). Violated by iid_log_density of exponential and geometric data and by the negative binomial with different numbers of failures, whose density lacks its base measure (C140_violated)."
  },
  {
   "property": "C141",
   "status": "partial",
   "theorems": [
    "Verif.C141_computed_sign",
    "Verif.C141_computed_margin",
    "Verif.C141_computed_normal",
    "Verif.C141_computed_normal_sample",
    "Verif.C141_most_powerful",
    "Verif.C141_overlap",
    "Verif.C141_sample",
    "Verif.C141_one_sided",
    "Verif.C141_families",
    "Verif.C141_counts",
    "Verif.C141_violated"
   ],
   "note": "Proved for any two distributions with regular laws (C122_regular) that occupy memory, for samples of any size with the sum of the log-densities, for binomial and negative binomial pairs that share the number of trials or failures, and one-sided for thirteen families. Violated for negative binomials with different numbers of failures, whose log-density lacks the coefficient (C141_violated). In floating point the decision is the comparison of the two computed log-densities, subtraction losing nothing (C141_computed_sign), so it is right when the margin exceeds the rounding error, with explicit bounds for normal distributions and samples."
  },
  {
   "property": "C142",
   "status": "proved",
   "theorems": [
    "Verif.C142_stream",
    "Verif.C142_order",
    "Verif.C142_batches",
    "Verif.C142_impossible",
    "Verif.C142_exact",
    "Verif.C142_order_matters"
   ],
   "note": "Independence of the order is exact only in the reals (C28_iid_laws) and when the terms are multiples of a power of two within the precision (C142_exact); otherwise it holds within twice the accumulated rounding error (C142_order, C142_batches). C142_order_matters gives three observations of the exponential distribution of rate one whose computed joint log-density depends on their order."
  },
  {
   "property": "C143",
   "status": "partial",
   "theorems": [
    "Verif.C143_marked",
    "Verif.C143_unmarked",
    "Verif.C143_iid",
    "Verif.C143_violated",
    "Verif.C143_primitive"
   ],
   "note": "Proved for the twelve marked distributions on their common support (binomial, negative binomial and categorical for each number of trials, successes or categories; discrete probabilities away from 0 and 1), for samples of any of them (C143_iid), and negatively for Cauchy and Student-t (C143_unmarked). Violated for IID, which carries the marker whatever it wraps: IID of a Cauchy claims to be an exponential family and is not (C143_violated). MixtureMeasure and MultivariateNormal have no marker in the model."
  },
  {
   "property": "C144",
   "status": "partial",
   "theorems": [
    "Verif.C144_gamma_joint_partial",
    "Verif.C144_gamma_partial",
    "Verif.C144_chi_squared_joint_partial",
    "Verif.C144_beta_joint_partial",
    "Verif.C144_normal_joint_partial",
    "Verif.C144_std_normal_joint_partial",
    "Verif.C144_poisson_joint_partial",
    "Verif.C144_bernoulli_joint_partial",
    "Verif.C144_binomial_joint_partial",
    "Verif.C144_exponential_violated",
    "Verif.C144_geometric_violated",
    "Verif.C144_negative_binomial_violated",
    "Verif.C144_std_normal_single_partial",
    "Verif.C144_beta_single_partial",
    "Verif.C144_chi_squared_single_partial",
    "Verif.C144_poisson_single_partial",
    "Verif.C144_bernoulli_single_partial",
    "Verif.C144_binomial_single_partial",
    "Verif.C144_beta_single_precision_partial"
   ],
   "note": "Proved for the joint value of normal (standard deviation in [2^-10, 2^10]), standard normal, Gamma, Beta, chi-squared (degrees of freedom from 2^-50), Poisson (double precision), Bernoulli and binomial (probability from 2^-60 on and below one) samples of any size with n u at most 1/1000 and terms below 2^80 (2^40 for the normal), and bit for bit against the single-observation path for Gamma (for all families in C146); the single-observation value of the other families is bounded too (C144_*_single_partial). Refuted for exponential and geometric samples: the joint value is an accurate value of another number, the joint log-density less 2 n ln(rate), plus n ln(1-p) (C144_exponential_violated, C144_geometric_violated). Refuted likewise for negative binomial samples with probability from 2^-60 to one half (C144_negative_binomial_violated). C144_beta_single_precision_partial is Beta in single precision with the log-partition computed in double precision, as the code does; the other Beta theorems, read at single precision, have every term in single precision. Missing: negative binomial samples with larger probability, larger samples, and accuracy relative to the joint value itself, which cancellation rules out (C90_cancellation_violated)."
  },
  {
   "property": "C145",
   "status": "partial",
   "theorems": [
    "Verif.C145_terminates",
    "Verif.C145_white_space",
    "Verif.C145_inner_space_violated"
   ],
   "note": "Termination and surrounding white space proved for every text. White space inside is not ignored everywhere: a second space before the first operand of a binary operator makes the text unreadable (C145_inner_space_violated)."
  },
  {
   "property": "C146",
   "status": "proved",
   "theorems": [
    "Verif.C146_any_family",
    "Verif.C146_continuous",
    "Verif.C146_discrete"
   ],
   "note": "For any family (C146_any_family) and for the eleven in the library with arrays of statistics (the categorical family has a vector and no joint exponential-family path). Assumes that the elementary functions return values of the format. The sign of zero is not modelled."
  },
  {
   "property": "C147",
   "status": "proved",
   "theorems": [
    "Verif.C147_bernoulli",
    "Verif.C147_geometric",
    "Verif.C147_gamma_order",
    "Verif.C147_chi_squared_order",
    "Verif.C147_beta_order",
    "Verif.C147_normal_order",
    "Verif.C147_std_normal_order",
    "Verif.C147_poisson_order",
    "Verif.C147_binomial_order"
   ],
   "note": "Bernoulli and geometric samples: equal to the last bit. The other families: bound for every permutation."
  },
  {
   "property": "C148",
   "status": "proved",
   "theorems": [
    "Verif.C148_gamma",
    "Verif.C148_bernoulli",
    "Verif.C148_poisson",
    "Verif.C148_normal",
    "Verif.C148_chi_squared",
    "Verif.C148_beta"
   ],
   "note": "Normal, Gamma, Beta, chi-squared, Bernoulli and Poisson samples. Not claimed for the families whose two log-densities are different functions: binomial and negative binomial (C20), exponential and geometric (C24)."
  },
  {
   "property": "C149",
   "status": "proved",
   "theorems": [
    "Verif.C149_normal",
    "Verif.C149_gamma",
    "Verif.C149_beta",
    "Verif.C149_chi_squared",
    "Verif.C149_poisson",
    "Verif.C149_bernoulli",
    "Verif.C149_binomial"
   ],
   "note": "For samples within the ranges of C144 (Poisson in double precision). The example shows a comparison that comes out right with every accurate library."
  },
  {
   "property": "C150",
   "status": "proved",
   "theorems": [
    "Verif.C150_gamma",
    "Verif.C150_beta",
    "Verif.C150_chi_squared",
    "Verif.C150_poisson",
    "Verif.C150_bernoulli",
    "Verif.C150_normal",
    "Verif.C150_violated"
   ],
   "note": "The bounds are in the sizes of C144 and C148. C150_violated refutes the agreement for the exponential distribution with rate two, all observations up to 2^10 (C24 in floating point)."
  }
 ]
}
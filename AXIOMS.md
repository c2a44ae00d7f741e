# Axioms of each theorem

Output of `#print axioms` for every theorem named in `MANIFEST.json`.

| property | theorem | axioms |
|---|---|---|
| C01 | `Verif.C01_relative_log_density_partial` | propext, Quot.sound |
| C01 | `Verif.C01_relative_log_density_apart_partial` | propext, Quot.sound |
| C02 | `Verif.C02_self` | propext, Classical.choice, Quot.sound |
| C02 | `Verif.C02_antisymm_partial` | propext, Classical.choice, Quot.sound |
| C02 | `Verif.C02_chain_partial` | propext, Classical.choice, Quot.sound |
| C02 | `Verif.C02_violated` | propext, Classical.choice, Quot.sound |
| C03 | `Verif.C03_wrt` | none |
| C03 | `Verif.C03_last_wrt_wins` | none |
| C04 | `Verif.C04_shortcut_never_fires_partial` | propext, Quot.sound |
| C04 | `Verif.C04_zero_sized_base_violated` | propext, Classical.choice, Quot.sound |
| C05 | `Verif.C05_cached_transparent` | propext, Quot.sound |
| C06 | `Verif.C06_batch_pointwise` | propext |
| C07 | `Verif.C07_evaluate_is_total` | propext, Classical.choice, Quot.sound |
| C07 | `Verif.C07_evaluate_iid_is_sum` | propext, Classical.choice, Quot.sound |
| C07 | `Verif.C07_builder_adds_term` | propext, Classical.choice, Quot.sound |
| C07 | `Verif.C07_parts` | propext, Classical.choice, Quot.sound |
| C08 | `Verif.C08_normal` | propext, Classical.choice, Quot.sound |
| C08 | `Verif.C08_cauchy` | propext, Classical.choice, Quot.sound |
| C08 | `Verif.C08_student_t` | propext, Classical.choice, Quot.sound |
| C09 | `Verif.C09_normal_density` | propext, Classical.choice, Quot.sound |
| C10 | `Verif.C10_exponential_density` | propext, Classical.choice, Quot.sound |
| C11 | `Verif.C11_gamma_density` | propext, Classical.choice, Quot.sound |
| C12 | `Verif.C12_beta_density` | propext, Classical.choice, Quot.sound |
| C13 | `Verif.C13_chi_squared_is_gamma` | propext, Classical.choice, Quot.sound |
| C14 | `Verif.C14_cauchy_density` | propext, Classical.choice, Quot.sound |
| C15 | `Verif.C15_student_t_density` | propext, Classical.choice, Quot.sound |
| C16 | `Verif.C16_bernoulli_pmf` | propext, Classical.choice, Quot.sound |
| C17 | `Verif.C17_geometric_pmf_partial` | propext, Classical.choice, Quot.sound |
| C17 | `Verif.C17_geometric_one_violated` | propext, Classical.choice, Quot.sound |
| C18 | `Verif.C18_poisson_pmf` | propext, Classical.choice, Quot.sound |
| C19 | `Verif.C19_categorical_pmf` | propext, Classical.choice, Quot.sound |
| C19 | `Verif.C19_num_categories` | propext, Classical.choice, Quot.sound |
| C20 | `Verif.C20_binomial_pmf_partial` | propext, Classical.choice, Quot.sound |
| C20 | `Verif.C20_binomial_violated` | propext, Classical.choice, Quot.sound |
| C21 | `Verif.C21_negative_binomial_pmf_partial` | propext, Classical.choice, Quot.sound |
| C21 | `Verif.C21_negative_binomial_violated` | propext, Classical.choice, Quot.sound |
| C22 | `Verif.C22_continuous_constructors_partial` | propext, Classical.choice, Quot.sound |
| C22 | `Verif.C22_discrete_constructors` | propext, Classical.choice, Quot.sound |
| C22 | `Verif.C22_categorical_constructor` | propext, Classical.choice, Quot.sound |
| C22 | `Verif.C22_nan_accepted_violated` | propext, Classical.choice, Quot.sound |
| C22 | `Verif.C22_defaults` | propext, Classical.choice, Quot.sound |
| C23 | `Verif.C23_support_continuous` | propext, Classical.choice, Quot.sound |
| C23 | `Verif.C23_support_discrete` | propext, Classical.choice, Quot.sound |
| C23 | `Verif.C23_support_weighted` | propext, Classical.choice, Quot.sound |
| C24 | `Verif.C24_continuous_agree` | propext, Classical.choice, Quot.sound |
| C24 | `Verif.C24_discrete_agree_partial` | propext, Classical.choice, Quot.sound |
| C24 | `Verif.C24_violated` | propext, Classical.choice, Quot.sound |
| C25 | `Verif.C25_round_trip_partial` | propext, Classical.choice, Quot.sound |
| C25 | `Verif.C25_natural_round_trip` | propext, Classical.choice, Quot.sound |
| C25 | `Verif.C25_violated` | propext, Classical.choice, Quot.sound |
| C26 | `Verif.C26_continuous` | propext, Classical.choice, Quot.sound |
| C26 | `Verif.C26_discrete_partial` | propext, Classical.choice, Quot.sound |
| C26 | `Verif.C26_violated` | propext, Classical.choice, Quot.sound |
| C27 | `Verif.C27_continuous_moments` | propext, Classical.choice, Quot.sound |
| C27 | `Verif.C27_discrete_moments_partial` | propext, Classical.choice, Quot.sound |
| C27 | `Verif.C27_violated` | propext, Classical.choice, Quot.sound |
| C27 | `Verif.C27_negative_binomial_exchanged` | propext, Classical.choice, Quot.sound |
| C27 | `Verif.C27_gamma_scale` | propext, Classical.choice, Quot.sound |
| C28 | `Verif.C28_iid_is_sum_partial` | propext, Classical.choice, Quot.sound |
| C28 | `Verif.C28_iid_laws` | propext, Classical.choice, Quot.sound |
| C28 | `Verif.C28_builder_agrees_partial` | propext, Classical.choice, Quot.sound |
| C28 | `Verif.C28_boundary_violated` | propext, Classical.choice, Quot.sound |
| C28 | `Verif.C28_fallback` | propext, Classical.choice, Quot.sound |
| C29 | `Verif.C29_iid_support` | propext, Quot.sound |
| C29 | `Verif.C29_iid_base` | propext, Classical.choice, Quot.sound |
| C29 | `Verif.C29_iid_family` | propext, Classical.choice, Quot.sound |
| C30 | `Verif.C30_sum_componentwise` | propext, Classical.choice, Quot.sound |
| C30 | `Verif.C30_sum_order` | propext, Classical.choice, Quot.sound |
| C30 | `Verif.C30_dot_distributes` | propext, Classical.choice, Quot.sound |
| C30 | `Verif.C30_dot_value` | propext, Classical.choice, Quot.sound |
| C30 | `Verif.C30_relative_within_family` | propext, Classical.choice, Quot.sound |
| C31 | `Verif.C31_closure_is_exp_fam` | propext, Classical.choice, Quot.sound |
| C31 | `Verif.C31_closure_is_log_density_partial` | propext, Classical.choice, Quot.sound |
| C31 | `Verif.C31_closure_wrt_partial` | propext |
| C31 | `Verif.C31_static_inline` | propext, Classical.choice, Quot.sound |
| C31 | `Verif.C31_violated` | propext, Classical.choice, Quot.sound |
| C32 | `Verif.C32_product_density` | propext, Classical.choice, Quot.sound |
| C32 | `Verif.C32_product_mass` | propext, Classical.choice, Quot.sound |
| C32 | `Verif.C32_nested_product` | propext, Classical.choice, Quot.sound |
| C32 | `Verif.C32_normal_poisson_mass` | propext, Classical.choice, Quot.sound |
| C33 | `Verif.C33_log_transform` | propext, Classical.choice, Quot.sound |
| C33 | `Verif.C33_exp_transform` | propext, Classical.choice, Quot.sound |
| C33 | `Verif.C33_linear_transform` | propext, Classical.choice, Quot.sound |
| C33 | `Verif.C33_logit_transform` | propext, Classical.choice, Quot.sound |
| C33 | `Verif.C33_log_normal` | propext, Classical.choice, Quot.sound |
| C33 | `Verif.C33_off_image_violated` | propext, Classical.choice, Quot.sound |
| C34 | `Verif.C34_mixture_density_partial` | propext, Classical.choice, Quot.sound |
| C34 | `Verif.C34_mixture_mass` | propext, Classical.choice, Quot.sound |
| C34 | `Verif.C34_negative_weight_violated` | propext, Classical.choice, Quot.sound |
| C35 | `Verif.C35_exp_arguments_nonpositive` | propext, Classical.choice, Quot.sound |
| C35 | `Verif.C35_bounds` | propext, Classical.choice, Quot.sound |
| C35 | `Verif.C35_perm_shift` | propext, Classical.choice, Quot.sound |
| C35 | `Verif.C35_special_values` | propext, Classical.choice, Quot.sound |
| C36 | `Verif.C36_new` | propext, Classical.choice, Quot.sound |
| C36 | `Verif.C36_uniform` | propext, Classical.choice, Quot.sound |
| C36 | `Verif.C36_mixture` | propext, Classical.choice, Quot.sound |
| C36 | `Verif.C36_in_support` | propext, Classical.choice, Quot.sound |
| C36 | `Verif.C36_uniform_mixture` | propext, Classical.choice, Quot.sound |
| C37 | `Verif.C37_linear_map` | propext, Classical.choice, Quot.sound |
| C37 | `Verif.C37_linear_jacobian_partial` | propext, Classical.choice, Quot.sound |
| C37 | `Verif.C37_componentwise_map` | propext, Classical.choice, Quot.sound |
| C37 | `Verif.C37_componentwise_jacobian_partial` | propext, Classical.choice, Quot.sound |
| C37 | `Verif.C37_violated` | propext, Classical.choice, Quot.sound |
| C38 | `Verif.C38_log_factorial_accurate` | propext, Classical.choice, Quot.sound |
| C38 | `Verif.C38_factorial_measure_density` | propext, Classical.choice, Quot.sound |
| C39 | `Verif.C39_binomial_coefficient` | propext, Classical.choice, Quot.sound |
| C39 | `Verif.C39_binomial_mass` | propext, Classical.choice, Quot.sound |
| C39 | `Verif.C39_negative_binomial_coefficient` | propext, Classical.choice, Quot.sound |
| C40 | `Verif.C40_nested_weights` | propext, Classical.choice, Quot.sound |
| C40 | `Verif.C40_weighted_mass` | propext, Classical.choice, Quot.sound |
| C40 | `Verif.C40_integral_density` | propext, Classical.choice, Quot.sound |
| C40 | `Verif.C40_integral_compose` | propext, Classical.choice, Quot.sound |
| C40 | `Verif.C40_primitive` | propext, Classical.choice, Quot.sound |
| C40 | `Verif.C40_dirac_support` | none |
| C41 | `Verif.C41_evaluate_value` | propext, Classical.choice, Quot.sound |
| C41 | `Verif.C41_evaluate_only_value` | propext, Classical.choice, Quot.sound |
| C41 | `Verif.C41_error_iff_undefined` | propext, Classical.choice, Quot.sound |
| C41 | `Verif.C41_zero_factor_hides` | propext, Classical.choice, Quot.sound |
| C41 | `Verif.C41_errors_truthful` | propext |
| C42 | `Verif.C42_variables` | propext, Classical.choice, Quot.sound |
| C42 | `Verif.C42_evaluate_depends_on_variables` | propext, Classical.choice, Quot.sound |
| C43 | `Verif.C43_single_var_agrees_partial` | propext, Classical.choice, Quot.sound |
| C43 | `Verif.C43_single_var_value` | propext, Classical.choice, Quot.sound |
| C43 | `Verif.C43_single_var_success` | propext, Classical.choice, Quot.sound |
| C43 | `Verif.C43_zero_factor_violated` | propext, Classical.choice, Quot.sound |
| C44 | `Verif.C44_linear` | propext, Classical.choice, Quot.sound |
| C44 | `Verif.C44_polynomial` | propext, Classical.choice, Quot.sound |
| C44 | `Verif.C44_smart_value` | propext, Classical.choice, Quot.sound |
| C44 | `Verif.C44_smart_agrees_partial` | propext, Classical.choice, Quot.sound |
| C44 | `Verif.C44_infinite_argument_violated` | propext, Classical.choice, Quot.sound |
| C45 | `Verif.C45_batch` | propext, Quot.sound |
| C45 | `Verif.C45_batch_vars` | propext, Quot.sound |
| C45 | `Verif.C45_grid` | propext, Quot.sound |
| C46 | `Verif.C46_optimized_agrees_partial` | propext, Classical.choice, Quot.sound |
| C46 | `Verif.C46_other_variables_are_zero` | propext, Classical.choice, Quot.sound |
| C46 | `Verif.C46_violated` | propext, Classical.choice, Quot.sound |
| C47 | `Verif.C47_simplify_value_partial` | propext, Classical.choice, Quot.sound |
| C47 | `Verif.C47_simplify_evaluate_partial` | propext, Classical.choice, Quot.sound |
| C47 | `Verif.C47_sqrt_square_violated` | propext, Classical.choice, Quot.sound |
| C47 | `Verif.C47_power_power_violated` | propext, Classical.choice, Quot.sound |
| C47 | `Verif.C47_ln_square_violated` | propext, Classical.choice, Quot.sound |
| C47 | `Verif.C47_log_density_simplify_partial` | propext, Classical.choice, Quot.sound |
| C47 | `Verif.C47_recorded_names_stale` | propext, Classical.choice, Quot.sound |
| C48 | `Verif.C48_operations` | propext, Quot.sound |
| C48 | `Verif.C48_complexity` | propext, Quot.sound |
| C48 | `Verif.C48_variables` | propext, Classical.choice, Quot.sound |
| C49 | `Verif.C49_iteration_reaches_fixed_point` | propext, Classical.choice, Quot.sound |
| C49 | `Verif.C49_fixed_point_stable_partial` | propext, Quot.sound |
| C49 | `Verif.C49_idempotent_violated` | propext, Classical.choice, Quot.sound |
| C50 | `Verif.C50_simplify_cached_partial` | propext, Classical.choice, Quot.sound |
| C50 | `Verif.C50_inf_violated` | propext, Classical.choice, Quot.sound |
| C51 | `Verif.C51_evaluate_cached_partial` | propext, Classical.choice, Quot.sound |
| C51 | `Verif.C51_errors_not_cached` | propext, Classical.choice, Quot.sound |
| C51 | `Verif.C51_collision_violated` | propext, Classical.choice, Quot.sound |
| C52 | `Verif.C52_counts` | propext, Classical.choice, Quot.sound |
| C52 | `Verif.C52_counts_with_clears` | propext, Classical.choice, Quot.sound |
| C52 | `Verif.C52_hit_rates` | propext, Classical.choice, Quot.sound |
| C52 | `Verif.C52_finished_is_cached` | propext, Classical.choice, Quot.sound |
| C52 | `Verif.C52_clear_zeroes_counters` | propext, Classical.choice, Quot.sound |
| C52 | `Verif.C52_clear_empties` | propext, Classical.choice, Quot.sound |
| C52 | `Verif.C52_counts_since_clear` | propext, Classical.choice, Quot.sound |
| C53 | `Verif.C53_no_parameter_left` | propext, Classical.choice, Quot.sound |
| C53 | `Verif.C53_variables_override` | propext, Quot.sound |
| C53 | `Verif.C53_single_overrides` | propext, Quot.sound |
| C53 | `Verif.C53_substitute_value` | propext, Classical.choice, Quot.sound |
| C53 | `Verif.C53_substitute_evaluate_partial` | propext, Classical.choice, Quot.sound |
| C53 | `Verif.C53_zero_parameter_violated` | propext, Classical.choice, Quot.sound |
| C54 | `Verif.C54_display_injective` | propext, Classical.choice, Quot.sound |
| C54 | `Verif.C54_python_injective` | propext, Classical.choice, Quot.sound |
| C54 | `Verif.C54_inf_violated` | propext, Classical.choice, Quot.sound |
| C54 | `Verif.C54_latex_violated` | propext, Classical.choice, Quot.sound |
| C55 | `Verif.C55_normal_log_pdf` | propext, Classical.choice, Quot.sound |
| C55 | `Verif.C55_normal_log_pdf_bad_scale` | propext, Classical.choice, Quot.sound |
| C55 | `Verif.C55_polynomial` | propext, Classical.choice, Quot.sound |
| C55 | `Verif.C55_gaussian_kernel` | propext, Classical.choice, Quot.sound |
| C55 | `Verif.C55_logistic` | propext, Classical.choice, Quot.sound |
| C55 | `Verif.C55_softplus` | propext, Classical.choice, Quot.sound |
| C55 | `Verif.C55_quadratic_term` | propext, Classical.choice, Quot.sound |
| C55 | `Verif.C55_linear_term` | propext, Classical.choice, Quot.sound |
| C55 | `Verif.C55_log_normal_constant` | propext, Classical.choice, Quot.sound |
| C55 | `Verif.C55_quadratic_and_constant` | propext, Classical.choice, Quot.sound |
| C56 | `Verif.Egglog.C56_rules_partial` | propext, Classical.choice, Quot.sound |
| C56 | `Verif.Egglog.C56_rules_violated` | propext, Classical.choice, Quot.sound |
| C56 | `Verif.Egglog.C56_optimize_partial` | propext, Classical.choice, Quot.sound |
| C56 | `Verif.Egglog.C56_sqrt_square_violated` | propext, Classical.choice, Quot.sound |
| C56 | `Verif.Egglog.C56_reuse_violated` | propext, Classical.choice, Quot.sound |
| C57 | `Verif.Egglog.C57_roundtrip_partial` | propext, Classical.choice, Quot.sound |
| C57 | `Verif.Egglog.C57_sqrt_violated` | propext, Classical.choice, Quot.sound |
| C57 | `Verif.Egglog.C57_constants` | propext, Classical.choice, Quot.sound |
| C57 | `Verif.Egglog.C57_constant_violated` | propext, Classical.choice, Quot.sound |
| C58 | `Verif.Egglog.C58_total_partial` | propext, Classical.choice, Quot.sound |
| C58 | `Verif.Egglog.C58_fallback` | propext, Classical.choice, Quot.sound |
| C58 | `Verif.Egglog.C58_panics_violated` | propext, Classical.choice, Quot.sound |
| C59 | `Verif.C59_compiles_iff` | propext, Classical.choice, Quot.sound |
| C59 | `Verif.C59_unknown_variable` | propext, Classical.choice, Quot.sound |
| C59 | `Verif.C59_computes` | propext, Classical.choice, Quot.sound |
| C59 | `Verif.C59_tagless_compiles_iff` | propext, Classical.choice, Quot.sound |
| C59 | `Verif.C59_tagless_unknown_variable` | propext, Classical.choice, Quot.sound |
| C59 | `Verif.C59_tagless_computes` | propext, Classical.choice, Quot.sound |
| C59 | `Verif.C59_tagless_order_irrelevant` | propext, Classical.choice, Quot.sound |
| C59 | `Verif.C59_shadowing` | propext, Classical.choice, Quot.sound |
| C59 | `Verif.C59_algebraic_exact` | propext, Classical.choice, Quot.sound |
| C60 | `Verif.C60_accuracy` | propext, Classical.choice, Quot.sound |
| C60 | `Verif.C60_range` | propext, Classical.choice, Quot.sound |
| C60 | `Verif.C60_out_of_range_violated` | propext, Classical.choice, Quot.sound |
| C60 | `Verif.C60_wrap_examples` | propext, Classical.choice, Quot.sound |
| C60 | `Verif.C60_traps_violated` | propext, Classical.choice, Quot.sound |
| C61 | `Verif.C61_split` | propext, Classical.choice, Quot.sound |
| C61 | `Verif.C61_accuracy` | propext, Classical.choice, Quot.sound |
| C61 | `Verif.C61_one` | propext, Classical.choice, Quot.sound |
| C61 | `Verif.C61_domain_violated` | propext, Classical.choice, Quot.sound |
| C61 | `Verif.C61_negative_violated` | propext, Classical.choice, Quot.sound |
| C62 | `Verif.C62_sin` | propext, Classical.choice, Quot.sound |
| C62 | `Verif.C62_cos` | propext, Classical.choice, Quot.sound |
| C63 | `Verif.C63_signature_arity` | propext, Classical.choice, Quot.sound |
| C63 | `Verif.C63_scalar_calls` | propext, Classical.choice, Quot.sound |
| C63 | `Verif.C63_call_domains` | propext, Classical.choice, Quot.sound |
| C63 | `Verif.C63_call_batch_violated` | propext, Quot.sound |
| C63 | `Verif.C63_call_batch_undefined` | propext, Classical.choice, Quot.sound |
| C63 | `Verif.C63_call_batch_domains` | propext, Classical.choice, Quot.sound |
| C64 | `Verif.C64_compiles_iff` | propext, Classical.choice, Quot.sound |
| C64 | `Verif.C64_compiled_value` | propext, Classical.choice, Quot.sound |
| C64 | `Verif.C64_custom_partial` | propext, Classical.choice, Quot.sound |
| C64 | `Verif.C64_violated` | propext, Classical.choice, Quot.sound |
| C64 | `Verif.C64_evaluate` | propext, Quot.sound |
| C64 | `Verif.C64_parameter_overridden` | propext, Classical.choice, Quot.sound |
| C64 | `Verif.C64_compile_custom_jit_partial` | propext, Classical.choice, Quot.sound |
| C65 | `Verif.C65_interpreters_agree` | propext |
| C65 | `Verif.C65_pretty_print` | propext, Classical.choice, Quot.sound |
| C65 | `Verif.C65_pretty_text_determines` | propext, Classical.choice, Quot.sound |
| C65 | `Verif.C65_trait_var_violated` | propext, Classical.choice, Quot.sound |
| C65 | `Verif.C65_collect_variables` | propext, Classical.choice, Quot.sound |
| C65 | `Verif.C65_count_constants` | propext |
| C65 | `Verif.C65_helpers_parametric` | propext, Quot.sound |
| C65 | `Verif.C65_patterns_parametric` | propext, Classical.choice, Quot.sound |
| C65 | `Verif.C65_statistical_helpers` | propext, Classical.choice, Quot.sound |
| C66 | `Verif.C66_dot_product_panics_iff` | propext, Classical.choice, Quot.sound |
| C66 | `Verif.C66_dot_product` | propext, Classical.choice, Quot.sound |
| C66 | `Verif.C66_dot_product_array` | propext, Classical.choice, Quot.sound |
| C66 | `Verif.C66_exp_fam_log_density` | propext, Classical.choice, Quot.sound |
| C66 | `Verif.C66_iid_exp_fam_log_density` | propext, Classical.choice, Quot.sound |
| C66 | `Verif.C66_log_density_panics_iff` | propext, Classical.choice, Quot.sound |
| C66 | `Verif.C66_sum_sufficient_stats` | propext, Classical.choice, Quot.sound |
| C66 | `Verif.C66_sum_sufficient_stats_panics_iff` | propext, Classical.choice, Quot.sound |
| C66 | `Verif.C66_mismatch_violated` | propext, Classical.choice, Quot.sound |
| C66 | `Verif.C66_sum_stats_array` | propext, Classical.choice, Quot.sound |
| C66 | `Verif.C66_sum_stats_array_panics_iff` | propext, Classical.choice, Quot.sound |
| C66 | `Verif.C66_log_sum_exp` | propext, Classical.choice, Quot.sound |
| C67 | `Verif.C67_normal_pattern` | propext, Classical.choice, Quot.sound |
| C67 | `Verif.C67_standard_normal_pattern` | propext, Classical.choice, Quot.sound |
| C67 | `Verif.C67_cauchy_pattern` | propext, Classical.choice, Quot.sound |
| C67 | `Verif.C67_exponential_pattern_partial` | propext, Classical.choice, Quot.sound |
| C67 | `Verif.C67_exponential_pattern_violated` | propext, Classical.choice, Quot.sound |
| C67 | `Verif.C67_exponential_eval` | propext, Classical.choice, Quot.sound |
| C67 | `Verif.C67_poisson_pattern_value` | propext, Classical.choice, Quot.sound |
| C67 | `Verif.C67_poisson_pattern_violated` | propext, Classical.choice, Quot.sound |
| C67 | `Verif.C67_poisson_pattern_zero_violated` | propext, Classical.choice, Quot.sound |
| C67 | `Verif.C67_gamma_patterns_violated` | propext, Classical.choice, Quot.sound |
| C67 | `Verif.C67_gamma_pattern_partial` | propext, Classical.choice, Quot.sound |
| C67 | `Verif.C67_student_t_pattern_partial` | propext, Classical.choice, Quot.sound |
| C67 | `Verif.C67_beta_pattern_value` | propext, Classical.choice, Quot.sound |
| C67 | `Verif.C67_beta_pattern_violated` | propext, Classical.choice, Quot.sound |
| C67 | `Verif.C67_gamma_eval_partial` | propext, Classical.choice, Quot.sound |
| C67 | `Verif.C67_gamma_eval_violated` | propext, Classical.choice, Quot.sound |
| C68 | `Verif.C68_expression_variant_agrees` | propext |
| C68 | `Verif.C68_horner_expr` | propext, Classical.choice, Quot.sound |
| C68 | `Verif.C68_horner` | propext, Classical.choice, Quot.sound |
| C68 | `Verif.C68_multiplications` | propext, Classical.choice, Quot.sound |
| C69 | `Verif.C69_horner_derivative` | propext, Classical.choice, Quot.sound |
| C70 | `Verif.C70_from_roots_value` | propext, Classical.choice, Quot.sound |
| C70 | `Verif.C70_from_roots_zero_iff` | propext, Classical.choice, Quot.sound |
| C71 | `Verif.C71_normal_likelihood` | propext, Classical.choice, Quot.sound |
| C71 | `Verif.C71_bad_scale` | propext, Classical.choice, Quot.sound |
| C71 | `Verif.C71_normal_prior` | propext, Classical.choice, Quot.sound |
| C71 | `Verif.C71_posterior` | propext, Classical.choice, Quot.sound |
| C71 | `Verif.C71_posterior_errors` | propext, Classical.choice, Quot.sound |
| C71 | `Verif.C71_normal_normal_posterior` | propext, Classical.choice, Quot.sound |
| C72 | `Verif.C72_panics_iff` | propext, Classical.choice, Quot.sound |
| C72 | `Verif.C72_mixture_value` | propext, Classical.choice, Quot.sound |
| C72 | `Verif.C72_empty` | propext, Classical.choice, Quot.sound |
| C72 | `Verif.C72_all_weights_zero` | propext, Classical.choice, Quot.sound |
| C72 | `Verif.C72_mixture_normalised` | propext, Classical.choice, Quot.sound |
| C72 | `Verif.C72_mixture_old` | propext, Classical.choice, Quot.sound |
| C72 | `Verif.C72_entry_points_agree` | propext, Classical.choice, Quot.sound |
| C73 | `Verif.C73_hierarchical_normal` | propext, Classical.choice, Quot.sound |
| C73 | `Verif.C73_tau_separates` | propext, Classical.choice, Quot.sound |
| C74 | `Verif.C74_history` | propext, Classical.choice, Quot.sound |
| C74 | `Verif.C74_failed_compile` | propext, Classical.choice, Quot.sound |
| C74 | `Verif.C74_never_returns_violated` | propext, Classical.choice, Quot.sound |
| C75 | `Verif.C75_last_registration_wins` | propext, Quot.sound |
| C75 | `Verif.C75_registered_pattern_used` | propext, Classical.choice, Quot.sound |
| C75 | `Verif.C75_auto_always_fails_violated` | propext, Classical.choice, Quot.sound |
| C76 | `Verif.C76_int_to_f64` | propext, Classical.choice, Quot.sound |
| C76 | `Verif.C76_ranges` | propext |
| C76 | `Verif.C76_int_to_f64_exact` | propext, Classical.choice, Quot.sound |
| C76 | `Verif.C76_int_to_int_partial` | propext, Classical.choice, Quot.sound |
| C76 | `Verif.C76_int_identity_violated` | propext, Classical.choice, Quot.sound |
| C76 | `Verif.C76_f64_to_int` | propext, Classical.choice, Quot.sound |
| C76 | `Verif.C76_special_to_int` | propext, Classical.choice, Quot.sound |
| C76 | `Verif.C76_float_to_float` | propext, Classical.choice, Quot.sound |
| C76 | `Verif.C76_float_constant` | propext, Classical.choice, Quot.sound |
| C76 | `Verif.C76_float_constant_fallback` | propext, Classical.choice, Quot.sound |
| C76 | `Verif.C76_double_rounding_violated` | propext, Classical.choice, Quot.sound |
| C76 | `Verif.C76_any_type` | propext, Quot.sound |
| C76 | `Verif.C76_default` | propext, Classical.choice, Quot.sound |
| C77 | `Verif.C77_mutual_exclusion` | propext, Classical.choice, Quot.sound |
| C77 | `Verif.C77_no_deadlock` | propext, Classical.choice, Quot.sound |
| C77 | `Verif.C77_all_calls_return` | propext, Classical.choice, Quot.sound |
| C78 | `Verif.C78_python_partial` | propext, Classical.choice, Quot.sound |
| C78 | `Verif.C78_reading` | propext, Classical.choice, Quot.sound |
| C78 | `Verif.C78_negated_base_violated` | propext, Classical.choice, Quot.sound |
| C78 | `Verif.C78_negative_literal_violated` | propext, Classical.choice, Quot.sound |
| C78 | `Verif.C78_reserved_word_violated` | propext, Classical.choice, Quot.sound |
| C78 | `Verif.C78_infinity_violated` | propext, Classical.choice, Quot.sound |
| C79 | `Verif.C79_operators` | propext, Classical.choice, Quot.sound |
| C79 | `Verif.C79_methods` | propext, Classical.choice, Quot.sound |
| C79 | `Verif.C79_conversions` | propext, Classical.choice, Quot.sound |
| C80 | `Verif.C80_static_normal` | propext, Classical.choice, Quot.sound |
| C80 | `Verif.C80_static_exponential` | propext, Classical.choice, Quot.sound |
| C80 | `Verif.C80_unchecked` | propext, Classical.choice, Quot.sound |
| C81 | `Verif.C81_auto_compiles` | propext, Classical.choice, Quot.sound |
| C81 | `Verif.C81_auto_single_partial` | propext, Classical.choice, Quot.sound |
| C81 | `Verif.C81_auto_unusable_violated` | propext, Classical.choice, Quot.sound |
| C81 | `Verif.C81_auto_order_violated` | propext, Classical.choice, Quot.sound |
| C81 | `Verif.C81_explicit_entry_points` | propext, Classical.choice, Quot.sound |
| C81 | `Verif.C81_signature_entry_points` | propext, Classical.choice, Quot.sound |
| C81 | `Verif.C81_signature_compiles_iff` | propext, Classical.choice, Quot.sound |
| C82 | `Verif.C82_distribution_eval` | propext |
| C82 | `Verif.C82_exp_fam_eval` | propext |
| C82 | `Verif.C82_trait_var` | propext, Quot.sound |
| C82 | `Verif.C82_direct_var_is_zero` | propext |
| C83 | `Verif.C83_survival_partial` | propext, Classical.choice, Quot.sound |
| C83 | `Verif.C83_beta_partial` | propext, Classical.choice, Quot.sound |
| C83 | `Verif.C83_erfc_partial` | propext, Classical.choice, Quot.sound |
| C83 | `Verif.C83_all_panic_violated` | none |
| C84 | `Verif.C84_returns_value_twice` | none |
| C84 | `Verif.C84_correct_iff_partial` | propext, Classical.choice, Quot.sound |
| C84 | `Verif.C84_gradient_violated` | propext, Classical.choice, Quot.sound |
| C85 | `Verif.C85_panics_are_not_cached` | propext, Quot.sound |
| C85 | `Verif.C85_reentrant_violated` | propext, Quot.sound |
| C86 | `Verif.C86_compile_jit_violated` | none |
| C86 | `Verif.C86_error_names_kind` | propext |
| C87 | `Verif.C87_latest_wins` | propext, Quot.sound |
| C87 | `Verif.C87_order_violated` | propext, Quot.sound |
| C88 | `Verif.C88_normal` | propext, Classical.choice, Quot.sound |
| C88 | `Verif.C88_overflow_violated` | propext, Classical.choice, Quot.sound |
| C88 | `Verif.C88_exponential` | propext, Classical.choice, Quot.sound |
| C89 | `Verif.C89_cauchy_partial` | propext, Classical.choice, Quot.sound |
| C89 | `Verif.C89_cauchy_violated` | propext, Classical.choice, Quot.sound |
| C90 | `Verif.C90_normal_partial` | propext, Classical.choice, Quot.sound |
| C90 | `Verif.C90_nan_violated` | propext, Classical.choice, Quot.sound |
| C90 | `Verif.C90_cancellation_violated` | propext, Classical.choice, Quot.sound |
| C91 | `Verif.C91_sum` | propext, Classical.choice, Quot.sound |
| C91 | `Verif.C91_sum_finite` | propext, Classical.choice, Quot.sound |
| C91 | `Verif.C91_normal_iid` | propext, Classical.choice, Quot.sound |
| C91 | `Verif.C91_iid_fallback` | propext, Classical.choice, Quot.sound |
| C92 | `Verif.C92_uniform_partial` | propext, Classical.choice, Quot.sound |
| C92 | `Verif.C92_uniform_violated` | propext, Classical.choice, Quot.sound |
| C92 | `Verif.C92_mixture_partial` | propext, Classical.choice, Quot.sound |
| C92 | `Verif.C92_mixture_violated` | propext, Classical.choice, Quot.sound |
| C92 | `Verif.C92_overflow_violated` | propext, Classical.choice, Quot.sound |
| C92 | `Verif.C92_accepted` | propext, Classical.choice, Quot.sound |
| C93 | `Verif.C93_logSumExp` | propext, Classical.choice, Quot.sound |
| C93 | `Verif.C93_mixture` | propext, Classical.choice, Quot.sound |
| C93 | `Verif.C93_normal_mixture` | propext, Classical.choice, Quot.sound |
| C94 | `Verif.C94_evaluate` | propext, Classical.choice, Quot.sound |
| C94 | `Verif.C94_evaluate_accurate` | propext, Classical.choice, Quot.sound |
| C94 | `Verif.C94_single_var_accurate` | propext, Classical.choice, Quot.sound |
| C94 | `Verif.C94_smart` | propext, Classical.choice, Quot.sound |
| C94 | `Verif.C94_smart_overflow_violated` | propext, Classical.choice, Quot.sound |
| C94 | `Verif.C94_simplify_violated` | propext, Classical.choice, Quot.sound |
| C95 | `Verif.C95_horner` | propext, Classical.choice, Quot.sound |
| C95 | `Verif.C95_dot_product` | propext, Classical.choice, Quot.sound |
| C95 | `Verif.C95_exponential_pattern` | propext, Classical.choice, Quot.sound |
| C95 | `Verif.C95_logistic` | propext, Classical.choice, Quot.sound |
| C95 | `Verif.C95_softplus_partial` | propext, Classical.choice, Quot.sound |
| C95 | `Verif.C95_softplus_violated` | propext, Classical.choice, Quot.sound |
| C95 | `Verif.C95_log_sum_exp_violated` | propext, Classical.choice, Quot.sound |
| C95 | `Verif.C95_log_sum_exp_partial` | propext, Classical.choice, Quot.sound |
| C95 | `Verif.C95_softplus_relative_violated` | propext, Classical.choice, Quot.sound |
| C96 | `Verif.C96_split` | propext, Classical.choice, Quot.sound |
| C96 | `Verif.C96_ln_partial` | propext, Classical.choice, Quot.sound |
| C96 | `Verif.C96_ln_domain_violated` | propext, Classical.choice, Quot.sound |
| C96 | `Verif.C96_exp_partial` | propext, Classical.choice, Quot.sound |
| C96 | `Verif.C96_exp_wrap_violated` | propext, Classical.choice, Quot.sound |
| C96 | `Verif.C96_exp_traps_violated` | propext, Classical.choice, Quot.sound |
| C96 | `Verif.C96_sin_partial` | propext, Classical.choice, Quot.sound |
| C96 | `Verif.C96_cos_partial` | propext, Classical.choice, Quot.sound |
| C96 | `Verif.C96_pow_partial` | propext, Classical.choice, Quot.sound |
| C97 | `Verif.C97_primitive` | propext, Classical.choice, Quot.sound |
| C97 | `Verif.C97_distribution_roots` | propext, Classical.choice, Quot.sound |
| C97 | `Verif.C97_wrappers` | propext, Classical.choice, Quot.sound |
| C97 | `Verif.C97_pushforward_image` | propext, Classical.choice, Quot.sound |
| C97 | `Verif.C97_iid_roots` | propext, Classical.choice, Quot.sound |
| C97 | `Verif.C97_mixture_root` | propext, Classical.choice, Quot.sound |
| C97 | `Verif.C97_default_base_partial` | propext, Classical.choice, Quot.sound |
| C97 | `Verif.C97_default_base_violated` | propext, Classical.choice, Quot.sound |
| C97 | `Verif.C97_coefficient_support` | propext, Classical.choice, Quot.sound |
| C98 | `Verif.C98_shared_root` | propext, Classical.choice, Quot.sound |
| C98 | `Verif.C98_not_normalised` | propext, Classical.choice, Quot.sound |
| C99 | `Verif.C99_complexity` | propext, Quot.sound |
| C99 | `Verif.C99_recorded` | propext, Classical.choice, Quot.sound |
| C99 | `Verif.C99_recorded_arithmetic_partial` | propext, Classical.choice, Quot.sound |
| C99 | `Verif.C99_recorded_violated` | propext, Classical.choice, Quot.sound |
| C99 | `Verif.C99_arithmetic_partial` | propext, Classical.choice, Quot.sound |
| C99 | `Verif.C99_code_linear` | propext, Classical.choice, Quot.sound |
| C99 | `Verif.C99_code_linear_sharp` | propext, Classical.choice, Quot.sound |
| C99 | `Verif.C99_elementary_violated` | propext, Classical.choice, Quot.sound |
| C99 | `Verif.C99_counts_violated` | propext, Classical.choice, Quot.sound |
| C99 | `Verif.C99_speedup` | propext, Classical.choice, Quot.sound |
| C100 | `Verif.C100_gamma_partial` | propext, Classical.choice, Quot.sound |
| C100 | `Verif.C100_chi_squared_partial` | propext, Classical.choice, Quot.sound |
| C100 | `Verif.C100_beta_partial` | propext, Classical.choice, Quot.sound |
| C100 | `Verif.C100_student_t_partial` | propext, Classical.choice, Quot.sound |
| C100 | `Verif.C100_gamma_nan_violated` | propext, Classical.choice, Quot.sound |
| C100 | `Verif.C100_student_t_violated` | propext, Classical.choice, Quot.sound |
| C101 | `Verif.C101_bernoulli` | propext, Classical.choice, Quot.sound |
| C101 | `Verif.C101_categorical` | propext, Classical.choice, Quot.sound |
| C101 | `Verif.C101_geometric_partial` | propext, Classical.choice, Quot.sound |
| C101 | `Verif.C101_geometric_violated` | propext, Classical.choice, Quot.sound |
| C101 | `Verif.C101_binomial_partial` | propext, Classical.choice, Quot.sound |
| C101 | `Verif.C101_negative_binomial_partial` | propext, Classical.choice, Quot.sound |
| C101 | `Verif.C101_poisson_partial` | propext, Classical.choice, Quot.sound |
| C101 | `Verif.C101_log_factorial` | propext, Classical.choice, Quot.sound |
| C102 | `Verif.C102_categorical_partial` | propext, Classical.choice, Quot.sound |
| C102 | `Verif.C102_bernoulli_partial` | propext, Classical.choice, Quot.sound |
| C102 | `Verif.C102_exponential` | propext, Classical.choice, Quot.sound |
| C102 | `Verif.C102_gamma` | propext, Classical.choice, Quot.sound |
| C102 | `Verif.C102_beta` | propext, Classical.choice, Quot.sound |
| C102 | `Verif.C102_poisson_partial` | propext, Classical.choice, Quot.sound |
| C102 | `Verif.C102_geometric_partial` | propext, Classical.choice, Quot.sound |
| C102 | `Verif.C102_chi_squared` | propext, Classical.choice, Quot.sound |
| C102 | `Verif.C102_overflow_violated` | propext, Classical.choice, Quot.sound |
| C102 | `Verif.C102_uniform_partial` | propext, Classical.choice, Quot.sound |
| C102 | `Verif.C102_uniform_violated` | propext, Classical.choice, Quot.sound |
| C102 | `Verif.C102_accepted` | propext, Classical.choice, Quot.sound |
| C102 | `Verif.C102_normal_partial` | propext, Classical.choice, Quot.sound |
| C103 | `Verif.C103_exponential` | propext, Classical.choice, Quot.sound |
| C103 | `Verif.C103_poisson_partial` | propext, Classical.choice, Quot.sound |
| C103 | `Verif.C103_gamma_partial` | propext, Classical.choice, Quot.sound |
| C103 | `Verif.C103_beta_partial` | propext, Classical.choice, Quot.sound |
| C103 | `Verif.C103_shape_violated` | propext, Classical.choice, Quot.sound |
| C103 | `Verif.C103_chi_squared_partial` | propext, Classical.choice, Quot.sound |
| C103 | `Verif.C103_normal_partial` | propext, Classical.choice, Quot.sound |
| C103 | `Verif.C103_bernoulli_partial` | propext, Classical.choice, Quot.sound |
| C103 | `Verif.C103_geometric_partial` | propext, Classical.choice, Quot.sound |
| C103 | `Verif.C103_bernoulli_violated` | propext, Classical.choice, Quot.sound |
| C103 | `Verif.C103_geometric_violated` | propext, Classical.choice, Quot.sound |
| C103 | `Verif.C103_categorical_partial` | propext, Classical.choice, Quot.sound |
| C103 | `Verif.C103_categorical_violated` | propext, Classical.choice, Quot.sound |
| C104 | `Verif.C104_new` | propext, Classical.choice, Quot.sound |
| C104 | `Verif.C104_log_density` | propext, Classical.choice, Quot.sound |
| C104 | `Verif.C104_dimension` | propext, Classical.choice, Quot.sound |
| C104 | `Verif.C104_support_partial` | propext, Classical.choice, Quot.sound |
| C104 | `Verif.C104_support_violated` | propext, Classical.choice, Quot.sound |
| C104 | `Verif.C104_round_trip` | propext, Classical.choice, Quot.sound |
| C104 | `Verif.C104_standard` | propext, Classical.choice, Quot.sound |
| C104 | `Verif.C104_law` | propext, Classical.choice, Quot.sound |
| C104 | `Verif.C104_total_mass` | propext, Classical.choice, Quot.sound |
| C104 | `Verif.C104_moments` | propext, Classical.choice, Quot.sound |
| C104 | `Verif.C104_independent` | propext, Classical.choice, Quot.sound |
| C104 | `Verif.C104_not_positive_violated` | propext, Classical.choice, Quot.sound |
| C104 | `Verif.C104_nan_violated` | propext, Classical.choice, Quot.sound |
| C104 | `Verif.C104_not_symmetric_violated` | propext, Classical.choice, Quot.sound |
| C105 | `Verif.C105_latex_partial` | propext, Classical.choice, Quot.sound |
| C105 | `Verif.C105_one_reading` | propext, Classical.choice, Quot.sound |
| C105 | `Verif.C105_sum_factor_violated` | propext, Classical.choice, Quot.sound |
| C105 | `Verif.C105_difference_violated` | propext, Classical.choice, Quot.sound |
| C105 | `Verif.C105_negated_base_violated` | propext, Classical.choice, Quot.sound |
| C105 | `Verif.C105_double_superscript_violated` | propext, Classical.choice, Quot.sound |
| C105 | `Verif.C105_long_name_violated` | propext, Classical.choice, Quot.sound |
| C105 | `Verif.C105_letter_e_violated` | propext, Classical.choice, Quot.sound |
| C106 | `Verif.C106_normal_log_pdf_partial` | propext, Classical.choice, Quot.sound |
| C106 | `Verif.C106_posterior_partial` | propext, Classical.choice, Quot.sound |
| C106 | `Verif.C106_mixture_partial` | propext, Classical.choice, Quot.sound |
| C106 | `Verif.C106_small_scale_violated` | propext, Classical.choice, Quot.sound |
| C106 | `Verif.C106_mixture_violated` | propext, Classical.choice, Quot.sound |
| C106 | `Verif.C106_hierarchical_partial` | propext, Classical.choice, Quot.sound |
| C107 | `Verif.C107_accepted_partial` | propext, Classical.choice, Quot.sound |
| C107 | `Verif.C107_meaning` | propext, Classical.choice, Quot.sound |
| C107 | `Verif.C107_refused_violated` | propext |
| C108 | `Verif.C108_evaluate` | propext, Classical.choice, Quot.sound |
| C108 | `Verif.C108_single_var` | propext, Classical.choice, Quot.sound |
| C109 | `Verif.C109_compiled` | propext, Classical.choice, Quot.sound |
| C109 | `Verif.C109_agrees` | propext, Classical.choice, Quot.sound |
| C110 | `Verif.C110_accurate` | propext, Classical.choice, Quot.sound |
| C110 | `Verif.C110_exact` | propext, Classical.choice, Quot.sound |
| C110 | `Verif.C110_antisymm` | propext, Classical.choice, Quot.sound |
| C110 | `Verif.C110_support` | propext, Classical.choice, Quot.sound |
| C110 | `Verif.C110_self_partial` | propext, Classical.choice, Quot.sound |
| C110 | `Verif.C110_self_violated` | propext, Classical.choice, Quot.sound |
| C110 | `Verif.C110_chain` | propext, Classical.choice, Quot.sound |
| C110 | `Verif.C110_normal_ratio` | propext, Classical.choice, Quot.sound |
| C111 | `Verif.C111_normal` | propext, Classical.choice, Quot.sound |
| C111 | `Verif.C111_normal_infinite` | propext, Classical.choice, Quot.sound |
| C111 | `Verif.C111_normal_symmetric` | propext, Classical.choice, Quot.sound |
| C111 | `Verif.C111_normal_iid` | propext, Classical.choice, Quot.sound |
| C111 | `Verif.C111_normal_iid_bounded` | propext, Classical.choice, Quot.sound |
| C111 | `Verif.C111_iid` | propext, Classical.choice, Quot.sound |
| C111 | `Verif.C111_exponential` | propext, Classical.choice, Quot.sound |
| C111 | `Verif.C111_cauchy` | propext, Classical.choice, Quot.sound |
| C111 | `Verif.C111_cauchy_iid` | propext, Classical.choice, Quot.sound |
| C111 | `Verif.C111_student_t` | propext, Classical.choice, Quot.sound |
| C111 | `Verif.C111_geometric` | propext, Classical.choice, Quot.sound |
| C111 | `Verif.C111_exp_fam_violated` | propext, Classical.choice, Quot.sound |
| C111 | `Verif.C111_normal_iid_total` | propext, Classical.choice, Quot.sound |
| C111 | `Verif.C111_cauchy_iid_total` | propext, Classical.choice, Quot.sound |
| C111 | `Verif.C111_student_t_total` | propext, Classical.choice, Quot.sound |
| C111 | `Verif.C111_iid_total` | propext, Classical.choice, Quot.sound |
| C112 | `Verif.C112_off_support` | propext, Quot.sound |
| C112 | `Verif.C112_nan_not_in_support` | propext, Classical.choice, Quot.sound |
| C112 | `Verif.C112_nan` | propext, Classical.choice, Quot.sound |
| C112 | `Verif.C112_infinite` | propext, Classical.choice, Quot.sound |
| C112 | `Verif.C112_gamma_infinite_partial` | propext, Classical.choice, Quot.sound |
| C112 | `Verif.C112_gamma_violated` | propext, Classical.choice, Quot.sound |
| C112 | `Verif.C112_chi_squared_violated` | propext, Classical.choice, Quot.sound |
| C112 | `Verif.C112_student_infinite_total` | propext, Classical.choice, Quot.sound |
| C112 | `Verif.C112_gamma_infinite_total` | propext, Classical.choice, Quot.sound |
| C113 | `Verif.C113_special_continuous` | propext, Classical.choice, Quot.sound |
| C113 | `Verif.C113_zero_violated` | propext, Classical.choice, Quot.sound |
| C113 | `Verif.C113_special_discrete` | propext, Classical.choice, Quot.sound |
| C113 | `Verif.C113_location_scale` | propext, Classical.choice, Quot.sound |
| C113 | `Verif.C113_transformed` | propext, Classical.choice, Quot.sound |
| C113 | `Verif.C113_symmetry` | propext, Classical.choice, Quot.sound |
| C113 | `Verif.C113_memoryless` | propext, Classical.choice, Quot.sound |
| C113 | `Verif.C113_recurrence` | propext, Classical.choice, Quot.sound |
| C114 | `Verif.C114_posterior` | propext, Classical.choice, Quot.sound |
| C114 | `Verif.C114_closed_form` | propext, Classical.choice, Quot.sound |
| C114 | `Verif.C114_normalised` | propext, Classical.choice, Quot.sound |
| C115 | `Verif.C115_continuous` | propext, Classical.choice, Quot.sound |
| C115 | `Verif.C115_discrete` | propext, Classical.choice, Quot.sound |
| C115 | `Verif.C115_ratio` | propext, Classical.choice, Quot.sound |
| C116 | `Verif.C116_normal` | propext, Classical.choice, Quot.sound |
| C116 | `Verif.C116_poisson` | propext, Classical.choice, Quot.sound |
| C116 | `Verif.C116_proportion` | propext, Classical.choice, Quot.sound |
| C116 | `Verif.C116_gamma` | propext, Classical.choice, Quot.sound |
| C116 | `Verif.C116_direct_sum` | propext, Classical.choice, Quot.sound |
| C116 | `Verif.C116_exp_fam_violated` | propext, Classical.choice, Quot.sound |
| C116 | `Verif.C116_negative_binomial_violated` | propext, Classical.choice, Quot.sound |
| C117 | `Verif.C117_product` | propext, Classical.choice, Quot.sound |
| C117 | `Verif.C117_weighted` | propext, Classical.choice, Quot.sound |
| C117 | `Verif.C117_linear` | propext, Classical.choice, Quot.sound |
| C117 | `Verif.C117_log_normal` | propext, Classical.choice, Quot.sound |
| C117 | `Verif.C117_grouping_violated` | propext, Classical.choice, Quot.sound |
| C118 | `Verif.C118_continuous_partial` | propext, Classical.choice, Quot.sound |
| C118 | `Verif.C118_discrete_partial` | propext, Classical.choice, Quot.sound |
| C118 | `Verif.C118_overflow_violated` | propext, Classical.choice, Quot.sound |
| C118 | `Verif.C118_categorical` | propext, Classical.choice, Quot.sound |
| C119 | `Verif.C119_direct` | propext, Classical.choice, Quot.sound |
| C119 | `Verif.C119_compiled` | propext, Classical.choice, Quot.sound |
| C119 | `Verif.C119_agrees` | propext, Classical.choice, Quot.sound |
| C120 | `Verif.C120_normal` | propext, Classical.choice, Quot.sound |
| C120 | `Verif.C120_exponential` | propext, Classical.choice, Quot.sound |
| C120 | `Verif.C120_gamma_partial` | propext, Classical.choice, Quot.sound |
| C120 | `Verif.C120_gamma_fixed_shape` | propext, Classical.choice, Quot.sound |
| C120 | `Verif.C120_beta_partial` | propext, Classical.choice, Quot.sound |
| C120 | `Verif.C120_beta_fixed` | propext, Classical.choice, Quot.sound |
| C120 | `Verif.C120_chi_squared_partial` | propext, Classical.choice, Quot.sound |
| C120 | `Verif.C120_chi_squared_fixed` | propext, Classical.choice, Quot.sound |
| C120 | `Verif.C120_cauchy` | propext, Classical.choice, Quot.sound |
| C120 | `Verif.C120_gamma_violated` | propext, Classical.choice, Quot.sound |
| C120 | `Verif.C120_student_t_violated` | propext, Classical.choice, Quot.sound |
| C120 | `Verif.C120_bernoulli` | propext, Classical.choice, Quot.sound |
| C120 | `Verif.C120_geometric` | propext, Classical.choice, Quot.sound |
| C120 | `Verif.C120_binomial` | propext, Classical.choice, Quot.sound |
| C120 | `Verif.C120_negative_binomial` | propext, Classical.choice, Quot.sound |
| C120 | `Verif.C120_poisson` | propext, Classical.choice, Quot.sound |
| C120 | `Verif.C120_categorical` | propext, Classical.choice, Quot.sound |
| C120 | `Verif.C120_normal_exp_fam` | propext, Classical.choice, Quot.sound |
| C120 | `Verif.C120_poisson_iid` | propext, Classical.choice, Quot.sound |
| C120 | `Verif.C120_chi_squared_violated` | propext, Classical.choice, Quot.sound |
| C120 | `Verif.C120_beta_violated` | propext, Classical.choice, Quot.sound |
| C120 | `Verif.C120_student_t_partial` | propext, Classical.choice, Quot.sound |
| C120 | `Verif.C120_relative` | propext, Classical.choice, Quot.sound |
| C120 | `Verif.C120_product` | propext, Classical.choice, Quot.sound |
| C120 | `Verif.C120_log_sum_exp` | propext, Classical.choice, Quot.sound |
| C120 | `Verif.C120_mixture` | propext, Classical.choice, Quot.sound |
| C120 | `Verif.C120_pushforward` | propext, Classical.choice, Quot.sound |
| C120 | `Verif.C120_normal_differentiates` | propext, Classical.choice, Quot.sound |
| C120 | `Verif.C120_exponential_differentiates` | propext, Classical.choice, Quot.sound |
| C120 | `Verif.C120_iid_fallback` | propext, Classical.choice, Quot.sound |
| C120 | `Verif.C120_normal_iid` | propext, Classical.choice, Quot.sound |
| C120 | `Verif.C120_cauchy_iid` | propext, Classical.choice, Quot.sound |
| C120 | `Verif.C120_tagless` | propext, Classical.choice, Quot.sound |
| C121 | `Verif.C121_student_t_rounded` | propext, Classical.choice, Quot.sound |
| C121 | `Verif.C121_student_t_partial` | propext, Classical.choice, Quot.sound |
| C121 | `Verif.C121_log_gamma` | propext, Classical.choice, Quot.sound |
| C121 | `Verif.C121_binomial_coefficient` | propext, Classical.choice, Quot.sound |
| C121 | `Verif.C121_negative_binomial_coefficient` | propext, Classical.choice, Quot.sound |
| C121 | `Verif.C121_gamma` | propext, Classical.choice, Quot.sound |
| C121 | `Verif.C121_beta_log_partition_partial` | propext, Classical.choice, Quot.sound |
| C122 | `Verif.C122_radon_nikodym_partial` | propext, Classical.choice, Quot.sound |
| C122 | `Verif.C122_divergence_partial` | propext, Classical.choice, Quot.sound |
| C122 | `Verif.C122_not_dominated_partial` | propext, Classical.choice, Quot.sound |
| C122 | `Verif.C122_regular` | propext, Classical.choice, Quot.sound |
| C122 | `Verif.C122_normal_divergence_partial` | propext, Classical.choice, Quot.sound |
| C122 | `Verif.C122_exponential_divergence_partial` | propext, Classical.choice, Quot.sound |
| C122 | `Verif.C122_poisson_divergence_partial` | propext, Classical.choice, Quot.sound |
| C122 | `Verif.C122_dominating` | propext, Classical.choice, Quot.sound |
| C123 | `Verif.C123_continuous` | propext, Classical.choice, Quot.sound |
| C123 | `Verif.C123_discrete_partial` | propext, Classical.choice, Quot.sound |
| C123 | `Verif.C123_chi_squared_partial` | propext, Classical.choice, Quot.sound |
| C123 | `Verif.C123_exponential_violated` | propext, Classical.choice, Quot.sound |
| C123 | `Verif.C123_geometric_violated` | propext, Classical.choice, Quot.sound |
| C123 | `Verif.C123_chi_squared_violated` | propext, Classical.choice, Quot.sound |
| C123 | `Verif.C123_std_normal_violated` | propext, Classical.choice, Quot.sound |
| C124 | `Verif.C124_product` | propext, Classical.choice, Quot.sound |
| C124 | `Verif.C124_weighted` | propext, Classical.choice, Quot.sound |
| C124 | `Verif.C124_mixture_partial` | propext, Classical.choice, Quot.sound |
| C124 | `Verif.C124_pushforward` | propext, Classical.choice, Quot.sound |
| C124 | `Verif.C124_transforms_partial` | propext, Classical.choice, Quot.sound |
| C124 | `Verif.C124_sample` | propext, Classical.choice, Quot.sound |
| C124 | `Verif.C124_iid_fallback` | propext, Classical.choice, Quot.sound |
| C124 | `Verif.C124_iid_partial` | propext, Classical.choice, Quot.sound |
| C124 | `Verif.C124_iid_violated` | propext, Classical.choice, Quot.sound |
| C124 | `Verif.C124_lognormal` | propext, Classical.choice, Quot.sound |
| C125 | `Verif.C125_normal` | propext, Classical.choice, Quot.sound |
| C125 | `Verif.C125_gamma` | propext, Classical.choice, Quot.sound |
| C125 | `Verif.C125_chi_squared` | propext, Classical.choice, Quot.sound |
| C125 | `Verif.C125_minimum` | propext, Classical.choice, Quot.sound |
| C125 | `Verif.C125_poisson` | propext, Classical.choice, Quot.sound |
| C125 | `Verif.C125_binomial_partial` | propext, Classical.choice, Quot.sound |
| C125 | `Verif.C125_negative_binomial` | propext, Classical.choice, Quot.sound |
| C126 | `Verif.C126_continuous` | propext, Classical.choice, Quot.sound |
| C126 | `Verif.C126_discrete` | propext, Classical.choice, Quot.sound |
| C126 | `Verif.C126_categorical_violated` | propext, Classical.choice, Quot.sound |
| C127 | `Verif.C127_evaluate` | propext, Classical.choice, Quot.sound |
| C127 | `Verif.C127_single_var` | propext, Classical.choice, Quot.sound |
| C127 | `Verif.C127_batch` | propext, Classical.choice, Quot.sound |
| C127 | `Verif.C127_polynomial` | propext, Classical.choice, Quot.sound |
| C127 | `Verif.C127_simplify_partial` | propext, Classical.choice, Quot.sound |
| C127 | `Verif.C127_smart_violated` | propext, Classical.choice, Quot.sound |
| C127 | `Verif.C127_overflow_violated` | propext, Classical.choice, Quot.sound |
| C127 | `Verif.C127_rounding_violated` | propext, Classical.choice, Quot.sound |
| C128 | `Verif.C128_continuous` | propext, Classical.choice, Quot.sound |
| C128 | `Verif.C128_discrete_partial` | propext, Classical.choice, Quot.sound |
| C128 | `Verif.C128_finite` | propext, Classical.choice, Quot.sound |
| C128 | `Verif.C128_geometric_violated` | propext, Classical.choice, Quot.sound |
| C128 | `Verif.C128_binomial_violated` | propext, Classical.choice, Quot.sound |
| C129 | `Verif.C129_binomial_poisson` | propext, Classical.choice, Quot.sound |
| C129 | `Verif.C129_negative_binomial_poisson` | propext, Classical.choice, Quot.sound |
| C129 | `Verif.C129_student_normal` | propext, Classical.choice, Quot.sound |
| C129 | `Verif.C129_geometric_exponential` | propext, Classical.choice, Quot.sound |
| C130 | `Verif.C130_normal` | propext, Classical.choice, Quot.sound |
| C130 | `Verif.C130_exponential` | propext, Classical.choice, Quot.sound |
| C130 | `Verif.C130_cauchy` | propext, Classical.choice, Quot.sound |
| C130 | `Verif.C130_gamma_partial` | propext, Classical.choice, Quot.sound |
| C130 | `Verif.C130_chi_squared_partial` | propext, Classical.choice, Quot.sound |
| C130 | `Verif.C130_beta_partial` | propext, Classical.choice, Quot.sound |
| C130 | `Verif.C130_student_partial` | propext, Classical.choice, Quot.sound |
| C130 | `Verif.C130_bernoulli` | propext, Classical.choice, Quot.sound |
| C130 | `Verif.C130_categorical` | propext, Classical.choice, Quot.sound |
| C130 | `Verif.C130_geometric_partial` | propext, Classical.choice, Quot.sound |
| C130 | `Verif.C130_geometric_violated` | propext, Classical.choice, Quot.sound |
| C130 | `Verif.C130_binomial_partial` | propext, Classical.choice, Quot.sound |
| C130 | `Verif.C130_binomial_violated` | propext, Classical.choice, Quot.sound |
| C130 | `Verif.C130_negative_binomial` | propext, Classical.choice, Quot.sound |
| C130 | `Verif.C130_poisson` | propext, Classical.choice, Quot.sound |
| C130 | `Verif.C130_iid` | propext, Classical.choice, Quot.sound |
| C130 | `Verif.C130_iid_mass` | propext, Classical.choice, Quot.sound |
| C130 | `Verif.C130_combinators` | propext, Classical.choice, Quot.sound |
| C130 | `Verif.C130_normal_sample` | propext, Classical.choice, Quot.sound |
| C130 | `Verif.C130_normal_iid` | propext, Classical.choice, Quot.sound |
| C130 | `Verif.C130_cauchy_iid` | propext, Classical.choice, Quot.sound |
| C130 | `Verif.C130_mixture` | propext, Classical.choice, Quot.sound |
| C130 | `Verif.C130_normal_mixture` | propext, Classical.choice, Quot.sound |
| C131 | `Verif.C131_law` | propext, Classical.choice, Quot.sound |
| C131 | `Verif.C131_sequential` | propext, Classical.choice, Quot.sound |
| C131 | `Verif.C131_beta_bernoulli` | propext, Classical.choice, Quot.sound |
| C131 | `Verif.C131_beta_binomial` | propext, Classical.choice, Quot.sound |
| C131 | `Verif.C131_beta_waiting` | propext, Classical.choice, Quot.sound |
| C131 | `Verif.C131_gamma_poisson` | propext, Classical.choice, Quot.sound |
| C131 | `Verif.C131_gamma_exponential` | propext, Classical.choice, Quot.sound |
| C131 | `Verif.C131_exponential_violated` | propext, Classical.choice, Quot.sound |
| C131 | `Verif.C131_gamma_gamma` | propext, Classical.choice, Quot.sound |
| C131 | `Verif.C131_gamma_normal` | propext, Classical.choice, Quot.sound |
| C131 | `Verif.C131_normal_normal` | propext, Classical.choice, Quot.sound |
| C132 | `Verif.C132_discrete_sum` | propext, Classical.choice, Quot.sound |
| C132 | `Verif.C132_discrete_expfam` | propext, Classical.choice, Quot.sound |
| C132 | `Verif.C132_maximum` | propext, Classical.choice, Quot.sound |
| C132 | `Verif.C132_exponential_violated` | propext, Classical.choice, Quot.sound |
| C132 | `Verif.C132_continuous` | propext, Classical.choice, Quot.sound |
| C133 | `Verif.C133_continuous` | propext, Classical.choice, Quot.sound |
| C133 | `Verif.C133_counts` | propext, Classical.choice, Quot.sound |
| C133 | `Verif.C133_unimodal` | propext, Classical.choice, Quot.sound |
| C133 | `Verif.C133_counts_unimodal` | propext, Classical.choice, Quot.sound |
| C133 | `Verif.C133_linear` | propext, Classical.choice, Quot.sound |
| C133 | `Verif.C133_unconstrained` | propext, Classical.choice, Quot.sound |
| C133 | `Verif.C133_mixture_violated` | propext, Classical.choice, Quot.sound |
| C134 | `Verif.C134_dominance` | propext, Classical.choice, Quot.sound |
| C134 | `Verif.C134_thresholds` | propext, Classical.choice, Quot.sound |
| C134 | `Verif.C134_relative` | propext, Classical.choice, Quot.sound |
| C134 | `Verif.C134_continuous` | propext, Classical.choice, Quot.sound |
| C134 | `Verif.C134_counts` | propext, Classical.choice, Quot.sound |
| C134 | `Verif.C134_location` | propext, Classical.choice, Quot.sound |
| C135 | `Verif.C135_closed_forms` | propext, Classical.choice, Quot.sound |
| C135 | `Verif.C135_poisson_gamma` | propext, Classical.choice, Quot.sound |
| C135 | `Verif.C135_binomial_beta` | propext, Classical.choice, Quot.sound |
| C135 | `Verif.C135_negative_binomial` | propext, Classical.choice, Quot.sound |
| C135 | `Verif.C135_symmetry` | propext, Classical.choice, Quot.sound |
| C135 | `Verif.C135_tail_bounds` | propext, Classical.choice, Quot.sound |
| C135 | `Verif.C135_memoryless` | propext, Classical.choice, Quot.sound |
| C136 | `Verif.C136_gibbs` | propext, Classical.choice, Quot.sound |
| C136 | `Verif.C136_closed_forms` | propext, Classical.choice, Quot.sound |
| C136 | `Verif.C136_maximal_real` | propext, Classical.choice, Quot.sound |
| C136 | `Verif.C136_maximal_counts` | propext, Classical.choice, Quot.sound |
| C136 | `Verif.C136_product` | propext, Classical.choice, Quot.sound |
| C136 | `Verif.C136_affine` | propext, Classical.choice, Quot.sound |
| C137 | `Verif.C137_pushforwards_compose` | propext, Classical.choice, Quot.sound |
| C137 | `Verif.C137_relative_densities` | propext, Classical.choice, Quot.sound |
| C137 | `Verif.C137_mixtures` | propext, Classical.choice, Quot.sound |
| C137 | `Verif.C137_mixing_commutes` | propext, Classical.choice, Quot.sound |
| C137 | `Verif.C137_products` | propext, Classical.choice, Quot.sound |
| C138 | `Verif.C138_poisson_gamma` | propext, Classical.choice, Quot.sound |
| C138 | `Verif.C138_student_t` | propext, Classical.choice, Quot.sound |
| C138 | `Verif.C138_normal_bernoulli` | propext, Classical.choice, Quot.sound |
| C138 | `Verif.C138_poisson_split` | propext, Classical.choice, Quot.sound |
| C138 | `Verif.C138_geometric_sum` | propext, Classical.choice, Quot.sound |
| C138 | `Verif.C138_beta_fraction` | propext, Classical.choice, Quot.sound |
| C139 | `Verif.C139_probability` | propext, Classical.choice, Quot.sound |
| C139 | `Verif.C139_rate` | propext, Classical.choice, Quot.sound |
| C139 | `Verif.C139_normal` | propext, Classical.choice, Quot.sound |
| C139 | `Verif.C139_almost_surely` | propext, Classical.choice, Quot.sound |
| C139 | `Verif.C139_almost_surely_counts` | propext, Classical.choice, Quot.sound |
| C139 | `Verif.C139_exponential_violated` | propext, Classical.choice, Quot.sound |
| C139 | `Verif.C139_waiting_violated` | propext, Classical.choice, Quot.sound |
| C140 | `Verif.C140_recognised` | propext, Classical.choice, Quot.sound |
| C140 | `Verif.C140_direct` | propext, Classical.choice, Quot.sound |
| C140 | `Verif.C140_continuous` | propext, Classical.choice, Quot.sound |
| C140 | `Verif.C140_discrete` | propext, Classical.choice, Quot.sound |
| C140 | `Verif.C140_violated` | propext, Classical.choice, Quot.sound |
| C140 | `Verif.C140_normal_or_cauchy` | propext, Classical.choice, Quot.sound |
| C141 | `Verif.C141_computed_sign` | propext, Classical.choice, Quot.sound |
| C141 | `Verif.C141_computed_margin` | propext, Classical.choice, Quot.sound |
| C141 | `Verif.C141_computed_normal` | propext, Classical.choice, Quot.sound |
| C141 | `Verif.C141_computed_normal_sample` | propext, Classical.choice, Quot.sound |
| C141 | `Verif.C141_most_powerful` | propext, Classical.choice, Quot.sound |
| C141 | `Verif.C141_overlap` | propext, Classical.choice, Quot.sound |
| C141 | `Verif.C141_sample` | propext, Classical.choice, Quot.sound |
| C141 | `Verif.C141_one_sided` | propext, Classical.choice, Quot.sound |
| C141 | `Verif.C141_families` | propext, Classical.choice, Quot.sound |
| C141 | `Verif.C141_counts` | propext, Classical.choice, Quot.sound |
| C141 | `Verif.C141_violated` | propext, Classical.choice, Quot.sound |
| C142 | `Verif.C142_stream` | propext, Quot.sound |
| C142 | `Verif.C142_order` | propext, Classical.choice, Quot.sound |
| C142 | `Verif.C142_batches` | propext, Classical.choice, Quot.sound |
| C142 | `Verif.C142_impossible` | propext, Classical.choice, Quot.sound |
| C142 | `Verif.C142_exact` | propext, Classical.choice, Quot.sound |
| C142 | `Verif.C142_order_matters` | propext, Classical.choice, Quot.sound |
| C143 | `Verif.C143_marked` | propext, Classical.choice, Quot.sound |
| C143 | `Verif.C143_unmarked` | propext, Classical.choice, Quot.sound |
| C143 | `Verif.C143_iid` | propext, Classical.choice, Quot.sound |
| C143 | `Verif.C143_violated` | propext, Classical.choice, Quot.sound |
| C143 | `Verif.C143_primitive` | propext, Classical.choice, Quot.sound |
| C144 | `Verif.C144_gamma_joint_partial` | propext, Classical.choice, Quot.sound |
| C144 | `Verif.C144_gamma_partial` | propext, Classical.choice, Quot.sound |
| C144 | `Verif.C144_chi_squared_joint_partial` | propext, Classical.choice, Quot.sound |
| C144 | `Verif.C144_beta_joint_partial` | propext, Classical.choice, Quot.sound |
| C144 | `Verif.C144_normal_joint_partial` | propext, Classical.choice, Quot.sound |
| C144 | `Verif.C144_std_normal_joint_partial` | propext, Classical.choice, Quot.sound |
| C144 | `Verif.C144_poisson_joint_partial` | propext, Classical.choice, Quot.sound |
| C144 | `Verif.C144_bernoulli_joint_partial` | propext, Classical.choice, Quot.sound |
| C144 | `Verif.C144_binomial_joint_partial` | propext, Classical.choice, Quot.sound |
| C144 | `Verif.C144_exponential_violated` | propext, Classical.choice, Quot.sound |
| C144 | `Verif.C144_geometric_violated` | propext, Classical.choice, Quot.sound |
| C144 | `Verif.C144_negative_binomial_violated` | propext, Classical.choice, Quot.sound |
| C144 | `Verif.C144_std_normal_single_partial` | propext, Classical.choice, Quot.sound |
| C144 | `Verif.C144_beta_single_partial` | propext, Classical.choice, Quot.sound |
| C144 | `Verif.C144_chi_squared_single_partial` | propext, Classical.choice, Quot.sound |
| C144 | `Verif.C144_poisson_single_partial` | propext, Classical.choice, Quot.sound |
| C144 | `Verif.C144_bernoulli_single_partial` | propext, Classical.choice, Quot.sound |
| C144 | `Verif.C144_binomial_single_partial` | propext, Classical.choice, Quot.sound |
| C144 | `Verif.C144_beta_single_precision_partial` | propext, Classical.choice, Quot.sound |
| C145 | `Verif.C145_terminates` | propext, Classical.choice, Quot.sound |
| C145 | `Verif.C145_white_space` | propext, Classical.choice, Quot.sound |
| C145 | `Verif.C145_inner_space_violated` | propext, Classical.choice, Quot.sound |
| C146 | `Verif.C146_any_family` | propext, Classical.choice, Quot.sound |
| C146 | `Verif.C146_continuous` | propext, Classical.choice, Quot.sound |
| C146 | `Verif.C146_discrete` | propext, Classical.choice, Quot.sound |
| C147 | `Verif.C147_bernoulli` | propext, Classical.choice, Quot.sound |
| C147 | `Verif.C147_geometric` | propext, Classical.choice, Quot.sound |
| C147 | `Verif.C147_gamma_order` | propext, Classical.choice, Quot.sound |
| C147 | `Verif.C147_chi_squared_order` | propext, Classical.choice, Quot.sound |
| C147 | `Verif.C147_beta_order` | propext, Classical.choice, Quot.sound |
| C147 | `Verif.C147_normal_order` | propext, Classical.choice, Quot.sound |
| C147 | `Verif.C147_std_normal_order` | propext, Classical.choice, Quot.sound |
| C147 | `Verif.C147_poisson_order` | propext, Classical.choice, Quot.sound |
| C147 | `Verif.C147_binomial_order` | propext, Classical.choice, Quot.sound |
| C148 | `Verif.C148_gamma` | propext, Classical.choice, Quot.sound |
| C148 | `Verif.C148_bernoulli` | propext, Classical.choice, Quot.sound |
| C148 | `Verif.C148_poisson` | propext, Classical.choice, Quot.sound |
| C148 | `Verif.C148_normal` | propext, Classical.choice, Quot.sound |
| C148 | `Verif.C148_chi_squared` | propext, Classical.choice, Quot.sound |
| C148 | `Verif.C148_beta` | propext, Classical.choice, Quot.sound |
| C149 | `Verif.C149_normal` | propext, Classical.choice, Quot.sound |
| C149 | `Verif.C149_gamma` | propext, Classical.choice, Quot.sound |
| C149 | `Verif.C149_beta` | propext, Classical.choice, Quot.sound |
| C149 | `Verif.C149_chi_squared` | propext, Classical.choice, Quot.sound |
| C149 | `Verif.C149_poisson` | propext, Classical.choice, Quot.sound |
| C149 | `Verif.C149_bernoulli` | propext, Classical.choice, Quot.sound |
| C149 | `Verif.C149_binomial` | propext, Classical.choice, Quot.sound |
| C150 | `Verif.C150_gamma` | propext, Classical.choice, Quot.sound |
| C150 | `Verif.C150_beta` | propext, Classical.choice, Quot.sound |
| C150 | `Verif.C150_chi_squared` | propext, Classical.choice, Quot.sound |
| C150 | `Verif.C150_poisson` | propext, Classical.choice, Quot.sound |
| C150 | `Verif.C150_bernoulli` | propext, Classical.choice, Quot.sound |
| C150 | `Verif.C150_normal` | propext, Classical.choice, Quot.sound |
| C150 | `Verif.C150_violated` | propext, Classical.choice, Quot.sound |

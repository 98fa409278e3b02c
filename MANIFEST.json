{
 "claims": [
  {
   "property": "C01",
   "status": "proved",
   "theorems": [
    "DiffDiff.Simplex.C01_projection_isProb",
    "DiffDiff.Simplex.C01_projection_isProb_rust",
    "DiffDiff.Simplex.C01_projection_empty"
   ],
   "note": ""
  },
  {
   "property": "C02",
   "status": "proved",
   "theorems": [
    "DiffDiff.Simplex.C02_projection_obtuse",
    "DiffDiff.Simplex.C02_projection_nearest",
    "DiffDiff.Simplex.C02_projection_unique",
    "DiffDiff.Simplex.C02_projection_fixes_prob",
    "DiffDiff.Simplex.C02_projection_idempotent",
    "DiffDiff.Simplex.C02_projection_shift",
    "DiffDiff.Simplex.C02_projection_perm",
    "DiffDiff.Simplex.C02_projection_monotone",
    "DiffDiff.Simplex.C02_projection_closer"
   ],
   "note": ""
  },
  {
   "property": "C03",
   "status": "proved",
   "theorems": [
    "DiffDiff.Simplex.C03_backends_agree"
   ],
   "note": ""
  },
  {
   "property": "C04",
   "status": "proved",
   "theorems": [
    "DiffDiff.SynthWeights.C04_unit_weights_isProb",
    "DiffDiff.SynthWeights.C04_single_control",
    "DiffDiff.SynthWeights.C04_min_weight_respected"
   ],
   "note": ""
  },
  {
   "property": "C05",
   "status": "proved",
   "theorems": [
    "DiffDiff.SynthWeights.C05_time_weights_isProb",
    "DiffDiff.SynthWeights.C05_time_weights_order",
    "DiffDiff.SynthWeights.C05_time_weights_more_uniform",
    "DiffDiff.SynthWeights.C05_negative_zeta_refuted"
   ],
   "note": "Proved for zeta >= 0; zeta is not validated by the code and C05_negative_zeta_refuted shows the hypothesis is needed."
  },
  {
   "property": "C06",
   "status": "proved",
   "theorems": [
    "DiffDiff.Sdid.C06_recovers_average_effect",
    "DiffDiff.Sdid.C06_recovers_constant_effect",
    "DiffDiff.Sdid.C06_fixed_effect_invariant",
    "DiffDiff.Sdid.C06_affine_in_treated_post",
    "DiffDiff.Sdid.C06_fit_recovers_effect",
    "DiffDiff.Sdid.C06_placebo_zero"
   ],
   "note": ""
  },
  {
   "property": "C07",
   "status": "proved",
   "theorems": [
    "DiffDiff.Within.C07_group_sums_zero",
    "DiffDiff.Within.C07_absorbs_group_effects",
    "DiffDiff.Within.C07_constant_within_group",
    "DiffDiff.Within.C07_idempotent",
    "DiffDiff.Within.C07_orthogonal_to_group_vars",
    "DiffDiff.Within.C07_n_effects"
   ],
   "note": ""
  },
  {
   "property": "C08",
   "status": "partial",
   "theorems": [
    "DiffDiff.Within.C08_absorbs_effects_partial",
    "DiffDiff.Within.C08_unit_sums_zero_partial",
    "DiffDiff.Within.C08_time_sums_zero_partial",
    "DiffDiff.Within.C08_idempotent_partial",
    "DiffDiff.Within.C08_unbalanced_refuted",
    "DiffDiff.Within.C08_unbalanced_sums_refuted",
    "DiffDiff.Within.C08_unbalanced_idempotent_refuted"
   ],
   "note": "Proved for balanced panels. The single-pass transformation does not remove fixed effects on unbalanced panels: three refutations."
  },
  {
   "property": "C09",
   "status": "partial",
   "theorems": [
    "DiffDiff.Within.C09_att_vs_coefficient_partial",
    "DiffDiff.Within.C09_att_attenuated_partial",
    "DiffDiff.Within.C09_twfe_att_refuted",
    "DiffDiff.Within.C09_period_labels_refuted"
   ],
   "note": "False as coded: the outcome is within-transformed but the regressor is not, so att is an attenuated multiple of the two-way coefficient (exact factor proved for balanced panels); period labels other than 0/1 change the estimate."
  },
  {
   "property": "C10",
   "status": "proved",
   "theorems": [
    "DiffDiff.Did2x2.C10_att_is_difference_of_means",
    "DiffDiff.Did2x2.C10_att_exists",
    "DiffDiff.Did2x2.C10_fitted_are_cell_means",
    "DiffDiff.Did2x2.C10_empty_cell_not_identified",
    "DiffDiff.Did2x2.C10_additive_effect",
    "DiffDiff.Did2x2.C10_antisymmetric",
    "DiffDiff.Did2x2.C10_covariates_recover"
   ],
   "note": ""
  },
  {
   "property": "C11",
   "status": "proved",
   "theorems": [
    "DiffDiff.Ols.C11_residuals_orthogonal",
    "DiffDiff.Ols.C11_iff_minimises",
    "DiffDiff.Ols.C11_fitted_unique",
    "DiffDiff.Ols.C11_coefficients_unique",
    "DiffDiff.Ols.C11_equivariant",
    "DiffDiff.Ols.C11_row_order",
    "DiffDiff.Ols.C11_column_order"
   ],
   "note": ""
  },
  {
   "property": "C12",
   "status": "proved",
   "theorems": [
    "DiffDiff.Ols.C12_nan_iff_dropped",
    "DiffDiff.Ols.C12_order_preserved",
    "DiffDiff.Ols.C12_vcov_nan",
    "DiffDiff.Ols.C12_predict",
    "DiffDiff.Ols.C12_predict_ignores_dropped",
    "DiffDiff.Ols.C12_fit_unchanged",
    "DiffDiff.Ols.C12_partition",
    "DiffDiff.Ols.C12_degrees_of_freedom",
    "DiffDiff.Ols.C12_rank_bounds"
   ],
   "note": ""
  },
  {
   "property": "C13",
   "status": "partial",
   "theorems": [
    "DiffDiff.Ols.C13_invalid_rejected",
    "DiffDiff.Ols.C13_valid_accepted",
    "DiffDiff.Ols.C13_error_action",
    "DiffDiff.Ols.C13_drop_action",
    "DiffDiff.Ols.C13_rust_only_full_rank",
    "DiffDiff.Ols.C13_fallback",
    "DiffDiff.Ols.C13_compiled_used",
    "DiffDiff.Ols.C13_no_nan_vcov_partial",
    "DiffDiff.Ols.C13_skip_returns_nan_refuted",
    "DiffDiff.Ols.C13_backend_same_columns"
   ],
   "note": "All claims hold for the default path; with skip_rank_check=True a rank-deficient design may return a NaN variance matrix (C13_skip_returns_nan_refuted), so the no-NaN claim carries the hypothesis that the check runs."
  },
  {
   "property": "C14",
   "status": "proved",
   "theorems": [
    "DiffDiff.Vcov.C14_symmetric_psd",
    "DiffDiff.Vcov.C14_variances_nonneg",
    "DiffDiff.Vcov.C14_label_invariant",
    "DiffDiff.Vcov.C14_row_order",
    "DiffDiff.Vcov.C14_singleton_clusters",
    "DiffDiff.Vcov.C14_one_cluster_error",
    "DiffDiff.Vcov.C14_scale",
    "DiffDiff.Vcov.C14_hash_order_irrelevant"
   ],
   "note": ""
  },
  {
   "property": "C15",
   "status": "proved",
   "theorems": [
    "DiffDiff.Vcov.C15_at_most_one",
    "DiffDiff.Vcov.C15_constant_outcome",
    "DiffDiff.Vcov.C15_in_unit_interval",
    "DiffDiff.Vcov.C15_monotone",
    "DiffDiff.Vcov.C15_adjusted_le"
   ],
   "note": ""
  },
  {
   "property": "C16",
   "status": "proved",
   "theorems": [
    "DiffDiff.Inference.C16_consistent",
    "DiffDiff.Inference.C16_nested",
    "DiffDiff.Inference.C16_sign_symmetric",
    "DiffDiff.Inference.C16_stars_levels",
    "DiffDiff.Sdid.C16_sdid_interval"
   ],
   "note": ""
  },
  {
   "property": "C17",
   "status": "partial",
   "theorems": [
    "DiffDiff.Inference.C17_cs",
    "DiffDiff.Inference.C17_trop_multiperiod",
    "DiffDiff.Inference.C17_dropped_coefficient",
    "DiffDiff.Inference.C17_infinite_se",
    "DiffDiff.Inference.C17_sa_triple_sdid_refuted",
    "DiffDiff.Inference.C17_regression_zero_se_refuted",
    "DiffDiff.Inference.C17_cs_interval_refuted"
   ],
   "note": "Proved for CallawaySantAnna t/p, TROP, the average of MultiPeriodDiD and dropped coefficients; refuted for SunAbraham, TripleDifference, SyntheticDiD (t = 0, p = 1 next to an interval excluding 0), for regression with zero standard error (p = 0; also the period effects of MultiPeriodDiD, see C148) and for CallawaySantAnna intervals."
  },
  {
   "property": "C18",
   "status": "proved",
   "theorems": [
    "DiffDiff.Params.C18_documented_accepted",
    "DiffDiff.Params.C18_set_then_get",
    "DiffDiff.Params.C18_round_trip",
    "DiffDiff.Params.C18_last_write_wins",
    "DiffDiff.Params.C18_bacon",
    "DiffDiff.Params.C18_every_keyword",
    "DiffDiff.Params.C18_pretrends_power"
   ],
   "note": ""
  },
  {
   "property": "C19",
   "status": "partial",
   "theorems": [
    "DiffDiff.Params.C19_bacon_atomic",
    "DiffDiff.Params.C19_bacon_always_valid",
    "DiffDiff.Params.C19_rejected_prefix_partial",
    "DiffDiff.Params.C19_partial_update_refuted",
    "DiffDiff.Params.C19_honest_invalid_state_refuted",
    "DiffDiff.Params.C19_unvalidated_option_refuted",
    "DiffDiff.Params.C19_honest_accepts"
   ],
   "note": "Proved for BaconDecomposition. False for every class whose set_params is the attribute loop (parameters before an unknown key are applied), for HonestDiD (validation after writing) and for options validated only in the constructor."
  },
  {
   "property": "C20",
   "status": "partial",
   "theorems": [
    "DiffDiff.Params.C20_numbers_history_independent",
    "DiffDiff.Params.C20_method_used",
    "DiffDiff.Params.C20_inference_method_partial",
    "DiffDiff.Params.C20_first_use_partial",
    "DiffDiff.Params.C20_stale_method_refuted"
   ],
   "note": "Numbers are history independent and bootstrap fits are reported correctly (proved). inference_method is false: once an object has used the bootstrap, later analytical fits are reported as wild_bootstrap."
  },
  {
   "property": "C21",
   "status": "partial",
   "theorems": [
    "DiffDiff.Formula.C21_star",
    "DiffDiff.Formula.C21_colon",
    "DiffDiff.Formula.C21_only_columns",
    "DiffDiff.Formula.C21_accepted_shape",
    "DiffDiff.Formula.C21_two_interactions_refuted",
    "DiffDiff.Formula.C21_covariate_first_refuted"
   ],
   "note": "Proved for both documented forms with any names, spacing, term order and covariates, plus soundness (only existing columns are returned, accepted formulas have one ~ and one interaction marker). False in general: with two interaction terms the last one silently wins, and a covariate written before the product becomes part of the treatment name (both refuted with witnesses). strip() whitespace set is a parameter."
  },
  {
   "property": "C22",
   "status": "proved",
   "theorems": [
    "DiffDiff.CS.C22_before_treatment",
    "DiffDiff.CS.C22_varying_pre",
    "DiffDiff.CS.C22_post_base",
    "DiffDiff.CS.C22_post_same",
    "DiffDiff.CS.C22_observed",
    "DiffDiff.CS.C22_reported",
    "DiffDiff.CS.C22_post_effects_same",
    "DiffDiff.CS.C22_overall_same",
    "DiffDiff.CS.C22_group_same"
   ],
   "note": "Base period selection, equality of post-treatment effects, and reporting, for all panels without covariates (base selection does not involve covariates). Units have one first_treat value."
  },
  {
   "property": "C23",
   "status": "partial",
   "theorems": [
    "DiffDiff.CS.C23_disjoint",
    "DiffDiff.CS.C23_never_included",
    "DiffDiff.CS.C23_treated_exact",
    "DiffDiff.CS.C23_never_only",
    "DiffDiff.CS.C23_not_yet_exact",
    "DiffDiff.CS.C23_controls_clean_partial",
    "DiffDiff.CS.C23_anticipation_refuted",
    "DiffDiff.CS.C23_universal_refuted",
    "DiffDiff.CS.C23_no_never_rejected"
   ],
   "note": "Disjointness, inclusion of never-treated and exact control sets are proved. The claim that controls are never already affected is false: with anticipation, not-yet-treated controls inside their anticipation window are used, and with the universal base a control may be treated at the base period when t precedes it. The partial theorem gives the conditions under which it holds."
  },
  {
   "property": "C24",
   "status": "proved",
   "theorems": [
    "DiffDiff.CS.C24_constant_effect_overall",
    "DiffDiff.CS.C24_identifies",
    "DiffDiff.CS.C24_never_treated",
    "DiffDiff.CS.C24_not_yet_treated",
    "DiffDiff.CS.C24_invariant",
    "DiffDiff.CS.C24_anticipation_refuted"
   ],
   "note": "The statement as written is proved; the refuted theorems concern what the statement excludes. Proved for additive untreated outcomes and arbitrary effects. With anticipation and not-yet-treated controls identification fails (refuted with a witness)."
  },
  {
   "property": "C25",
   "status": "proved",
   "theorems": [
    "DiffDiff.CS.C25_overall",
    "DiffDiff.CS.C25_overall_nan",
    "DiffDiff.CS.C25_overall_bounds",
    "DiffDiff.CS.C25_constant",
    "DiffDiff.CS.C25_event",
    "DiffDiff.CS.C25_event_complete",
    "DiffDiff.CS.C25_group"
   ],
   "note": "Overall, event-study and group aggregates, for every panel."
  },
  {
   "property": "C26",
   "status": "partial",
   "theorems": [
    "DiffDiff.CS.C26_centred",
    "DiffDiff.CS.C26_constant_weights",
    "DiffDiff.CS.C26_draw_linear",
    "DiffDiff.CS.C26_bootstrap_variance",
    "DiffDiff.CS.C26_variance",
    "DiffDiff.CS.C26_ipw_variance",
    "DiffDiff.CS.C26_ipw_refuted",
    "DiffDiff.CS.C26_single_pair_refuted",
    "DiffDiff.CS.C26_single_pair_le",
    "DiffDiff.CS.C26_wif_homogeneous",
    "DiffDiff.CS.C26_wif_centred",
    "DiffDiff.CS.C26_overall_homogeneous"
   ],
   "note": "Centring, linearity and variances. The IPW standard error without covariates divides the control variance by the number of treated units (refuted). A single-pair aggregate's standard error differs from that pair's standard error by the (n-1)/n factor (refuted, with the inequality proved). The bootstrap omits the weight-estimation term."
  },
  {
   "property": "C27",
   "status": "partial",
   "theorems": [
    "DiffDiff.BootStats.C27_interval_ordered",
    "DiffDiff.BootStats.C27_interval_nested",
    "DiffDiff.BootStats.C27_interval_range",
    "DiffDiff.BootStats.C27_interval_perm",
    "DiffDiff.BootStats.C27_pvalue_range",
    "DiffDiff.BootStats.C27_pvalue_symmetric_partial",
    "DiffDiff.BootStats.C27_zero_estimate_refuted",
    "DiffDiff.BootStats.C27_pvalue_perm",
    "DiffDiff.BootStats.C27_too_few_finite",
    "DiffDiff.BootStats.C27_nonfinite_ignored",
    "DiffDiff.BootStats.C27_reported"
   ],
   "note": "Symmetry under sign flips fails when the estimate is exactly zero (refuted); proved otherwise. Standard errors as squares."
  },
  {
   "property": "C28",
   "status": "proved",
   "theorems": [
    "DiffDiff.BootWeights.C28_rademacher",
    "DiffDiff.BootWeights.C28_mammen",
    "DiffDiff.BootWeights.C28_webb",
    "DiffDiff.BootWeights.C28_python_rust",
    "DiffDiff.BootWeights.C28_rust_moments",
    "DiffDiff.BootWeights.C28_mammen_documented",
    "DiffDiff.BootWeights.C28_iid_covariance",
    "DiffDiff.BootWeights.C28_exact_bootstrap_variance"
   ],
   "note": "Exact moments over the reals; independence of draws is the product measure. Rounding in the tables is not modelled."
  },
  {
   "property": "C29",
   "status": "proved",
   "theorems": [
    "DiffDiff.BootWeights.C29_schedule_independent",
    "DiffDiff.BootWeights.C29_deterministic",
    "DiffDiff.BootWeights.C29_partial_rows_are_prefixes",
    "DiffDiff.BootWeights.C29_more_iterations",
    "DiffDiff.BootWeights.C29_consecutive_seeds"
   ],
   "note": "Arbitrary interleavings of single element writes of the row tasks; the generator is abstract."
  },
  {
   "property": "C30",
   "status": "partial",
   "theorems": [
    "DiffDiff.Bacon.C30_bacon",
    "DiffDiff.CS.C30_cs_effect",
    "DiffDiff.CS.C30_cs_groups",
    "DiffDiff.CS.C30_cs_effects_partial",
    "DiffDiff.CS.C30_cs_overall",
    "DiffDiff.CS.C30_cs_control_count",
    "DiffDiff.CS.C30_cs_universal",
    "DiffDiff.CS.C30_cs_refuted",
    "DiffDiff.CS.C30_cs_treated_count",
    "DiffDiff.SunAb.C30_sunab_partial",
    "DiffDiff.SunAb.C30_sunab_refuted"
   ],
   "note": "CallawaySantAnna and Bacon: all reported results identical under recoding. SunAbraham: event study, overall effect and cohort effects identical (C30_sunab_partial) but groups and n_treated differ (C30_sunab_refuted)."
  },
  {
   "property": "C31",
   "status": "proved",
   "theorems": [
    "DiffDiff.Bacon.C31_weights_positive",
    "DiffDiff.Bacon.C31_sum_one",
    "DiffDiff.Bacon.C31_types_sum_one",
    "DiffDiff.Bacon.C31_type_average",
    "DiffDiff.Bacon.C31_type_absent"
   ],
   "note": "For all panels, both weight options: weights of reported comparisons positive, sum to one, type totals sum to one, type averages are weighted averages."
  },
  {
   "property": "C32",
   "status": "partial",
   "theorems": [
    "DiffDiff.Bacon.C32_goodman_bacon",
    "DiffDiff.Bacon.C32_exact_partial",
    "DiffDiff.Bacon.C32_single_cohort_partial",
    "DiffDiff.Bacon.C32_refuted"
   ],
   "note": "The Goodman-Bacon identity holds for the reported estimates with weights treated x control x pre x post counts (all balanced panels), but the code's weights are different, so the reported decomposition error is non-zero (C32_refuted). Partial: condition under which the exact weights give error 0, and the one-comparison case for both options."
  },
  {
   "property": "C33",
   "status": "proved",
   "theorems": [
    "DiffDiff.Bacon.C33_earlier_vs_later_window",
    "DiffDiff.Bacon.C33_later_vs_earlier_window",
    "DiffDiff.Bacon.C33_absent",
    "DiffDiff.Bacon.C33_present",
    "DiffDiff.Bacon.C33_window_exact",
    "DiffDiff.Bacon.C33_clean_controls",
    "DiffDiff.Bacon.C33_constant_effect"
   ],
   "note": "Windows, presence, identification under additive untreated outcomes, constant effects."
  },
  {
   "property": "C34",
   "status": "proved",
   "theorems": [
    "DiffDiff.SunAb.C34_identification",
    "DiffDiff.SunAb.C34_weights",
    "DiffDiff.SunAb.C34_bounds",
    "DiffDiff.SunAb.C34_missing_propagates",
    "DiffDiff.SunAb.C34_reference",
    "DiffDiff.SunAb.C34_overall"
   ],
   "note": "Weights, bounds, NaN propagation and the missing reference period for every regression back end; identification of every cohort effect on balanced noise-free panels without assuming a rank condition (full rank is derived)."
  },
  {
   "property": "C35",
   "status": "partial",
   "theorems": [
    "DiffDiff.SunAb.C35_default_index_partial",
    "DiffDiff.SunAb.C35_refuted",
    "DiffDiff.SunAb.C35_filtered_refuted"
   ],
   "note": "True for data frames with default index (C35_default_index_partial); false for filtered or re-indexed frames (C35_refuted, C35_filtered_refuted)."
  },
  {
   "property": "C36",
   "status": "partial",
   "theorems": [
    "DiffDiff.TripleDiff.C36_reg",
    "DiffDiff.TripleDiff.C36_reg_exists",
    "DiffDiff.TripleDiff.C36_ipw",
    "DiffDiff.TripleDiff.C36_reg_shift",
    "DiffDiff.TripleDiff.C36_ipw_shift",
    "DiffDiff.TripleDiff.C36_dr_formula",
    "DiffDiff.TripleDiff.C36_dr_partial",
    "DiffDiff.TripleDiff.C36_dr_refuted"
   ],
   "note": "Proved for regression adjustment and IPW (any trimming below 1). Doubly robust: exact formula, agreement when cell shares are equal in both periods (C36_dr_partial), false otherwise (C36_dr_refuted: constant outcomes give a non-zero effect)."
  },
  {
   "property": "C37",
   "status": "partial",
   "theorems": [
    "DiffDiff.TripleDiff.C37_outcome_model_ignored",
    "DiffDiff.TripleDiff.C37_cell_probabilities",
    "DiffDiff.TripleDiff.C37_refuted",
    "DiffDiff.TripleDiff.C37_dr_strata_partial",
    "DiffDiff.TripleDiff.C37_ipw_strata"
   ],
   "note": "false of the code: the outcome model cancels out of the doubly robust estimate and perfect outcome fit does not protect against wrong scores (C37_refuted); proved: exact recovery within strata under correct scores, and the cell probabilities form a distribution with the fitted margins"
  },
  {
   "property": "C38",
   "status": "proved",
   "theorems": [
    "DiffDiff.TripleDiff.C38_validation_exact"
   ],
   "note": "Validation accepts exactly the valid frames (columns, missing values, 0/1 codes, eight cells, covariates)."
  },
  {
   "property": "C39",
   "status": "partial",
   "theorems": [
    "DiffDiff.HonestDid.C39_nested",
    "DiffDiff.HonestDid.C39_monotone",
    "DiffDiff.HonestDid.C39_zero",
    "DiffDiff.HonestDid.C39_exact_range_partial",
    "DiffDiff.HonestDid.C39_default_weights",
    "DiffDiff.HonestDid.C39_exact_range_refuted",
    "DiffDiff.HonestDid.C39_weights_length",
    "DiffDiff.HonestDid.C39_fit_cs"
   ],
   "note": "nesting, monotonicity and M=0 proved; exact range proved when the absolute weights sum to one (default weights), refuted for every other weight vector"
  },
  {
   "property": "C40",
   "status": "partial",
   "theorems": [
    "DiffDiff.HonestDid.C40_refuted",
    "DiffDiff.HonestDid.C40_finite_partial",
    "DiffDiff.HonestDid.C40_promised_set_bounded",
    "DiffDiff.HonestDid.C40_never_significant",
    "DiffDiff.HonestDid.C40_combined",
    "DiffDiff.HonestDid.C40_zero_se",
    "DiffDiff.HonestDid.C40_solver_exists"
   ],
   "note": "false of the code: pre-period violations are not pinned, so the set is infinite for every M whenever the weights do not sum to zero (C40_refuted), hence never significant; finite and exact only for weights orthogonal to constants and trends; the promised set is bounded"
  },
  {
   "property": "C41",
   "status": "proved",
   "theorems": [
    "DiffDiff.HonestDid.C41_accuracy",
    "DiffDiff.HonestDid.C41_terminates",
    "DiffDiff.HonestDid.C41_tolerance_needed",
    "DiffDiff.HonestDid.C41_zero",
    "DiffDiff.HonestDid.C41_grid",
    "DiffDiff.HonestDid.C41_grid_none",
    "DiffDiff.HonestDid.C41_rm"
   ],
   "note": "accuracy, termination, grid bisection and the explicit relative-magnitude threshold"
  },
  {
   "property": "C42",
   "status": "partial",
   "theorems": [
    "DiffDiff.HonestDid.C42_cs_partial",
    "DiffDiff.HonestDid.C42_refuted",
    "DiffDiff.HonestDid.C42_pre_magnitude_refuted",
    "DiffDiff.HonestDid.C42_cs_magnitude",
    "DiffDiff.HonestDid.C42_kept"
   ],
   "note": "false for every MultiPeriodDiD fit (covariance block and pre-period magnitudes); proved for CallawaySantAnna results"
  },
  {
   "property": "C43",
   "status": "partial",
   "theorems": [
    "DiffDiff.Pretrends.C43_unit_partial",
    "DiffDiff.Pretrends.C43_unit_refuted",
    "DiffDiff.Pretrends.C43_length",
    "DiffDiff.Pretrends.C43_size",
    "DiffDiff.Pretrends.C43_monotone",
    "DiffDiff.Pretrends.C43_mdv_power",
    "DiffDiff.Pretrends.C43_mdv_finite",
    "DiffDiff.Pretrends.C43_mdv_finite_refuted",
    "DiffDiff.Pretrends.C43_single_linear",
    "DiffDiff.Pretrends.C43_power_at_partial",
    "DiffDiff.Pretrends.C43_power_at_refuted",
    "DiffDiff.Pretrends.C43_default_fit",
    "DiffDiff.Pretrends.C43_adequate_iff",
    "DiffDiff.Pretrends.C43_curve",
    "DiffDiff.Pretrends.C43_curve_grid",
    "DiffDiff.Pretrends.C43_extract_multi",
    "DiffDiff.Pretrends.C43_extract_events",
    "DiffDiff.Pretrends.C43_validate",
    "DiffDiff.PretrendsReport.C43_curve_top"
   ],
   "note": "Proved: unit direction except the linear pattern with one pre-period, power size and monotonicity, MDV power, exact extraction of the pre-period estimates and covariance. False of the code and refuted: linear pattern with one pre-period is not of unit length, power_at of a custom pattern uses the unscaled constant pattern, MDV is infinite for large but reachable noncentralities."
  },
  {
   "property": "C44",
   "status": "partial",
   "theorems": [
    "DiffDiff.Power.C44_size",
    "DiffDiff.Power.C44_effect_monotone",
    "DiffDiff.Power.C44_mde_partial",
    "DiffDiff.Power.C44_mde_refuted",
    "DiffDiff.Power.C44_mde_less_refuted",
    "DiffDiff.Power.C44_units_monotone",
    "DiffDiff.Power.C44_sample_size_panel",
    "DiffDiff.Power.C44_sample_size_partial",
    "DiffDiff.Power.C44_sample_size_bound",
    "DiffDiff.Power.C44_sample_size_refuted",
    "DiffDiff.Power.C44_sample_size_minimal",
    "DiffDiff.Power.C44_panel_size_refuted",
    "DiffDiff.Power.C44_reported_power_partial",
    "DiffDiff.Power.C44_reported_power_refuted",
    "DiffDiff.Power.C44_validate",
    "DiffDiff.Power.C44_required_n",
    "DiffDiff.Power.C44_defined",
    "DiffDiff.Power.C44_sample_size_defined"
   ],
   "note": "Proved: size, monotonicity in effect and units, one-sided MDE, sample size bounds and minimality with an even split, results fields. False of the code and refuted: two-sided MDE is not exact, 'less' alternative reports a positive MDE, panel sample size is twice the minimum, odd allocations, reported power of sample_size."
  },
  {
   "property": "C45",
   "status": "partial",
   "theorems": [
    "DiffDiff.Diagnostics.C45_range",
    "DiffDiff.Diagnostics.C45_draws_are_refits",
    "DiffDiff.Diagnostics.C45_runs_iff",
    "DiffDiff.Diagnostics.C45_single_draw",
    "DiffDiff.Diagnostics.C45_all_failed",
    "DiffDiff.Diagnostics.C45_fields",
    "DiffDiff.Diagnostics.C45_share",
    "DiffDiff.Diagnostics.C45_same_number",
    "DiffDiff.Diagnostics.C45_nan_effect_refuted",
    "DiffDiff.Diagnostics.C45_textbook_valid",
    "DiffDiff.Diagnostics.C45_valid_partial",
    "DiffDiff.Diagnostics.C45_vs_textbook",
    "DiffDiff.Diagnostics.C45_valid_refuted"
   ],
   "note": "Proved: range, share of draws, draws are refits of the data with exactly the original number of treated units, the fields. The validity guarantee is false as coded (C45_valid_refuted: the original assignment is not counted in numerator and denominator); C45_valid_partial proves the bound that does hold, C45_textbook_valid the corrected p-value."
  },
  {
   "property": "C46",
   "status": "proved",
   "theorems": [
    "DiffDiff.Diagnostics.C46_rejects_post",
    "DiffDiff.Diagnostics.C46_post_outcomes_irrelevant",
    "DiffDiff.Diagnostics.C46_pre_rows_only",
    "DiffDiff.Diagnostics.C46_splits_pre_window",
    "DiffDiff.Diagnostics.C46_default_window"
   ],
   "note": "Proved for every outcome engine: post-treatment rows cannot influence the result."
  },
  {
   "property": "C47",
   "status": "partial",
   "theorems": [
    "DiffDiff.Prep.C47_exact",
    "DiffDiff.Prep.C47_missing_period_refuted",
    "DiffDiff.Prep.C47_balanced",
    "DiffDiff.Prep.C47_idempotent"
   ],
   "note": "False as stated when the time column has missing values: the missing label counts as a period, so no unit is complete and the result is empty (C47_missing_period_refuted). C47_exact/C47_balanced/C47_idempotent prove the statement when every time label is present."
  },
  {
   "property": "C48",
   "status": "proved",
   "theorems": [
    "DiffDiff.Prep.C48_rows_survive",
    "DiffDiff.Prep.C48_grid",
    "DiffDiff.Prep.C48_fill_value",
    "DiffDiff.Prep.C48_methods",
    "DiffDiff.Prep.C48_fill_none"
   ],
   "note": "Grid methods modelled on frames with labels present; merge of duplicate unit-period rows kept; fill with a value and fill by carrying values both covered."
  },
  {
   "property": "C49",
   "status": "partial",
   "theorems": [
    "DiffDiff.Prep.C49_accepts",
    "DiffDiff.Prep.C49_lossless",
    "DiffDiff.Prep.C49_read_back",
    "DiffDiff.Prep.C49_sorted",
    "DiffDiff.Prep.C49_repeated_column_refuted"
   ],
   "note": "Proved for distinct value columns (C49_lossless, C49_read_back, C49_sorted, C49_accepts). A value column listed twice is accepted and its rows all get the later label (C49_repeated_column_refuted)."
  },
  {
   "property": "C50",
   "status": "partial",
   "theorems": [
    "DiffDiff.PrepRank.C50_rejects",
    "DiffDiff.PrepRank.C50_candidates",
    "DiffDiff.PrepRank.C50_sorted",
    "DiffDiff.PrepRank.C50_top",
    "DiffDiff.PrepRank.C50_scores_partial",
    "DiffDiff.PrepRank.C50_missing_covariate_refuted",
    "DiffDiff.PrepRank.C50_scores_refuted",
    "DiffDiff.PrepRank.C50_rmse",
    "DiffDiff.PrepRank.C50_outcome_score",
    "DiffDiff.PrepRank.C50_covariate_score"
   ],
   "note": "Candidate set, ordering, top-k and required-unit guarantees proved for all panels. Scores in [0,1] proved only when every control has a comparable pre-period (C50_scores_partial): if the first control is not comparable all scores are NaN (C50_scores_refuted), and one control with a missing covariate switches covariate matching off for all (C50_missing_covariate_refuted)."
  },
  {
   "property": "C51",
   "status": "partial",
   "theorems": [
    "DiffDiff.PrepValidate.C51_valid_iff",
    "DiffDiff.PrepValidate.C51_raises",
    "DiffDiff.PrepValidate.C51_no_raise_partial",
    "DiffDiff.PrepValidate.C51_type_error_refuted",
    "DiffDiff.PrepValidate.C51_estimable",
    "DiffDiff.PrepValidate.C51_summary",
    "DiffDiff.PrepValidate.C51_warnings",
    "DiffDiff.PrepValidate.C51_multi_period_refuted"
   ],
   "note": "valid = True characterised exactly and shown to imply estimability for two-period data. Missing: a validation run can raise TypeError instead of reporting (C51_type_error_refuted), and with more than two periods valid can be True although the groups share no period (C51_multi_period_refuted)."
  },
  {
   "property": "C52",
   "status": "proved",
   "theorems": [
    "DiffDiff.Results.C52_levels",
    "DiffDiff.Results.C52_monotone",
    "DiffDiff.Results.C52_significant",
    "DiffDiff.Results.C52_nan",
    "DiffDiff.Results.C52_period_level_refuted"
   ],
   "note": "The statement as written is proved; the refuted theorems concern what the statement excludes. Stars, monotonicity and NaN proved. C52_period_level_refuted records that the flag of a period or group-time effect uses 5% whatever level the fit used, so at any other level it can contradict its own interval."
  },
  {
   "property": "C53",
   "status": "partial",
   "theorems": [
    "DiffDiff.Diagnostics.C53_placebo_refuted",
    "DiffDiff.Results.C53_default_partial",
    "DiffDiff.Results.C53_refuted"
   ],
   "note": "Holds only when the summary is printed at the level of the fit and that level is a whole percentage (C53_default_partial). summary(alpha) relabels the stored interval, and 97.5% prints as 97% (C53_refuted); placebo summaries ignore alpha altogether (C53_placebo_refuted)."
  },
  {
   "property": "C54",
   "status": "proved",
   "theorems": [
    "DiffDiff.Trop.C54_rejects_iff",
    "DiffDiff.Trop.C54_accepts_iff",
    "DiffDiff.Trop.C54_zero_then_one",
    "DiffDiff.Trop.C54_counts",
    "DiffDiff.Trop.C54_nonbinary_refuted",
    "DiffDiff.Trop.C54_cell_values"
   ],
   "note": "Exact acceptance criterion for 0/1 panels; other treatment values are not checked (refuted witness)."
  },
  {
   "property": "C55",
   "status": "proved",
   "theorems": [
    "DiffDiff.Trop.C55_univariate",
    "DiffDiff.Trop.C55_in_grid",
    "DiffDiff.Trop.C55_cycle",
    "DiffDiff.Trop.C55_selected_in_grids",
    "DiffDiff.Trop.C55_never_worse",
    "DiffDiff.Trop.C55_fixed_point",
    "DiffDiff.Trop.C55_global_refuted"
   ],
   "note": "Univariate minimiser, membership in the grids, monotone cycles, fixed points; global optimality is refuted by a witness."
  },
  {
   "property": "C56",
   "status": "partial",
   "theorems": [
    "DiffDiff.Trop.C56_search",
    "DiffDiff.Trop.C56_effective_partial",
    "DiffDiff.TropFit.C56_stored_score",
    "DiffDiff.TropFit.C56_final_score_refuted",
    "DiffDiff.Trop.C56_nn_infinite"
   ],
   "note": "Search and estimation treat infinity as 0; the stored cross-validation score does not: it is the sum of squared outcomes (C56_stored_score, C56_final_score_refuted)."
  },
  {
   "property": "C57",
   "status": "partial",
   "theorems": [
    "DiffDiff.TropBoot.C57_bootstrap_panel",
    "DiffDiff.TropFit.C57_jackknife",
    "DiffDiff.TropFit.C57_bootstrap_partial",
    "DiffDiff.TropFit.C57_bootstrap_refuted"
   ],
   "note": "True for the jackknife. False for the bootstrap: replicates use the stored outcomes, treatment and column order of the original data (C57_bootstrap_refuted); equality only under the stated conditions."
  },
  {
   "property": "C58",
   "status": "proved",
   "theorems": [
    "DiffDiff.Backend.C58_python",
    "DiffDiff.Backend.C58_rust",
    "DiffDiff.Backend.C58_auto",
    "DiffDiff.Backend.C58_all_or_nothing"
   ],
   "note": "Availability is modelled per imported symbol."
  },
  {
   "property": "C59",
   "status": "proved",
   "theorems": [
    "DiffDiff.MultiPeriod.C59_average",
    "DiffDiff.MultiPeriod.C59_nan",
    "DiffDiff.MultiPeriod.C59_psd"
   ],
   "note": "average effect: mean, variance from the covariance block, NaN propagation, zero variance"
  },
  {
   "property": "C60",
   "status": "partial",
   "theorems": [
    "DiffDiff.WildBoot.C60_validates",
    "DiffDiff.WildBoot.C60_range",
    "DiffDiff.WildBoot.C60_share",
    "DiffDiff.WildBoot.C60_refuted",
    "DiffDiff.WildBoot.C60_textbook",
    "DiffDiff.WildBoot.C60_partial",
    "DiffDiff.WildBoot.C60_no_power_refuted",
    "DiffDiff.WildBoot.C60_perfect_fit_refuted",
    "DiffDiff.WildBoot.C60_defined",
    "DiffDiff.WildBoot.C60_did_saturated"
   ],
   "note": "The claim is false of the code: the restricted outcome is y - null*x, but the bootstrap DGP refits the unrestricted regression, so replicates are centred at estimate - null, not at the null (C60_refuted; C60_textbook shows what the textbook version does). With saturated designs the test has no power (C60_no_power_refuted), a perfect fit gets p = 1/B rank only (C60_perfect_fit_refuted). C60_partial, C60_share, C60_range, C60_validates, C60_defined state what does hold."
  },
  {
   "property": "C61",
   "status": "proved",
   "theorems": [
    "DiffDiff.SynthWeights.C61_numpy_not_worse_than_uniform",
    "DiffDiff.SynthWeights.C61_numpy_iterates_monotone",
    "DiffDiff.SynthWeights.C61_fixed_point_optimal"
   ],
   "note": "Proved for the interpreted backend under the step-size condition that 1/(norm(H,2)+eps) guarantees. False for the compiled backend, see C62_rust_worse_than_uniform_refuted."
  },
  {
   "property": "C62",
   "status": "partial",
   "theorems": [
    "DiffDiff.SynthWeights.C62_backends_same_step_partial",
    "DiffDiff.SynthWeights.C62_rust_worse_than_uniform_refuted",
    "DiffDiff.SynthWeights.C62_rust_worse_every_budget",
    "DiffDiff.SynthWeights.C62_backends_differ_refuted"
   ],
   "note": "False: the compiled backend uses a fixed step 0.1 and can cycle between vertices; witness proved for every iteration budget. Partial: with equal step sizes the two iterations coincide."
  },
  {
   "property": "C63",
   "status": "partial",
   "theorems": [
    "DiffDiff.Sdid.C63_bootstrap_pvalue_at_least_half",
    "DiffDiff.Sdid.C63_large_effect_significant_refuted",
    "DiffDiff.Sdid.C63_pvalue_range_partial",
    "DiffDiff.Sdid.C63_zero_se_contradiction"
   ],
   "note": "False: replicates are not centred, so for replicates symmetric about the estimate the p-value is at least 1/2 for every effect size. Partial: range of the p-value."
  },
  {
   "property": "C64",
   "status": "partial",
   "theorems": [
    "DiffDiff.Did2x2.C64_absorb_recovers_partial",
    "DiffDiff.Did2x2.C64_absorb_unbalanced_refuted"
   ],
   "note": "False on unbalanced panels (witness: absorb gives 3/4, dummies give the true 1): only the outcome and the covariates are demeaned, the design is not. Partial: recovery when the demeaned design spans the demeaned effect."
  },
  {
   "property": "C65",
   "status": "partial",
   "theorems": [
    "DiffDiff.Vcov.C65_full_rank_ok_partial",
    "DiffDiff.Vcov.C65_saturated_refuted"
   ],
   "note": "False: with n = k the adjustment divides by zero (Python ZeroDivisionError). Partial: n > k always succeeds or raises the documented ValueError."
  },
  {
   "property": "C66",
   "status": "partial",
   "theorems": [
    "DiffDiff.RobustVcov.C66_when_it_answers",
    "DiffDiff.RobustVcov.C66_same_outcome",
    "DiffDiff.RobustVcov.C66_message_refuted",
    "DiffDiff.RobustVcov.C66_saturated_refuted",
    "DiffDiff.Vcov.C66_backends_agree_partial",
    "DiffDiff.Vcov.C66_missing_cluster_refuted"
   ],
   "note": "False when cluster identifiers are missing: the interpreted path drops the rows from the meat, the compiled path groups them. Partial: agreement without missing identifiers."
  },
  {
   "property": "C67",
   "status": "partial",
   "theorems": [
    "DiffDiff.Inference.C67_df_argument_partial",
    "DiffDiff.Inference.C67_nonpositive_df_normal",
    "DiffDiff.Inference.C67_df_none_refuted"
   ],
   "note": "False for df=None (the sentinel equals the default). Partial: positive df is honoured."
  },
  {
   "property": "C68",
   "status": "partial",
   "theorems": [
    "DiffDiff.Inference.C68_same_distribution_partial",
    "DiffDiff.Inference.C68_interval_contradicts_p_refuted"
   ],
   "note": "False: p-value from a t distribution, interval from the normal. Partial: they agree if both used the same distribution."
  },
  {
   "property": "C69",
   "status": "partial",
   "theorems": [
    "DiffDiff.Params.C69_unknown_rejected_partial",
    "DiffDiff.Params.C69_internal_names_refuted"
   ],
   "note": "False: hasattr accepts method names and internal state. Partial: names that are no attribute at all are rejected."
  },
  {
   "property": "C70",
   "status": "partial",
   "theorems": [
    "DiffDiff.Params.C70_direct_partial",
    "DiffDiff.Params.C70_cs_weights_refuted",
    "DiffDiff.Params.C70_honest_default_refuted"
   ],
   "note": "False for CallawaySantAnna bootstrap_weights and HonestDiD default M. Partial: true for classes whose constructor stores its keywords unchanged."
  },
  {
   "property": "C71",
   "status": "partial",
   "theorems": [
    "DiffDiff.CS.C71_odds_bounded",
    "DiffDiff.CS.C71_ipw_weights",
    "DiffDiff.CS.C71_ipw_identifies",
    "DiffDiff.CS.C71_ipw_shift",
    "DiffDiff.CS.C71_dr_outcome_model",
    "DiffDiff.CS.C71_dr_propensity_model",
    "DiffDiff.CS.C71_reg_dr_shift",
    "DiffDiff.CS.C71_centred",
    "DiffDiff.CS.C71_reg_value",
    "DiffDiff.CS.C71_collinear_refuted"
   ],
   "note": "Point estimates and influence functions of the three covariate estimators for arbitrary fitted nuisance values. Collinear covariates make regression-based effects NaN (refuted)."
  },
  {
   "property": "C72",
   "status": "partial",
   "theorems": [
    "DiffDiff.BootStats.C72_small_p_excludes_zero_partial",
    "DiffDiff.BootStats.C72_refuted"
   ],
   "note": "False of the code (the floor 1/(n+1), the doubled one-sided count and interpolation disagree); refuted with a witness and a sound one-directional statement proved."
  },
  {
   "property": "C73",
   "status": "partial",
   "theorems": [
    "DiffDiff.SunAb.C73_failed_replicates_refuted"
   ],
   "note": "False of the code (C73_failed_replicates_refuted): replicates that all fail repeat the point estimate; SE 0, one-point CI, p = 1/(B+1)."
  },
  {
   "property": "C74",
   "status": "proved",
   "theorems": [
    "DiffDiff.SunAb.C74_control_option_inert"
   ],
   "note": "The option is inert: results are identical for both values."
  },
  {
   "property": "C75",
   "status": "partial",
   "theorems": [
    "DiffDiff.TripleDiff.C75_dr_se_shift",
    "DiffDiff.TripleDiff.C75_dr_se_nonneg",
    "DiffDiff.TripleDiff.C75_ipw_refuted"
   ],
   "note": "True for regression adjustment (residuals unchanged, C36_reg_shift) and doubly robust; false for IPW (C75_ipw_refuted)."
  },
  {
   "property": "C76",
   "status": "proved",
   "theorems": [
    "DiffDiff.MultiPeriod.C76_classification",
    "DiffDiff.MultiPeriod.C76_refused",
    "DiffDiff.MultiPeriod.C76_interaction_position",
    "DiffDiff.MultiPeriod.C76_gap",
    "DiffDiff.MultiPeriod.C76_period_effect",
    "DiffDiff.MultiPeriod.C76_recovers"
   ],
   "note": "layout, period classification, refusal conditions, period effects (without covariates)"
  },
  {
   "property": "C77",
   "status": "partial",
   "theorems": [
    "DiffDiff.HonestDid.C77_significant_iff",
    "DiffDiff.HonestDid.C77_nan_refuted",
    "DiffDiff.HonestDid.C77_none_refuted",
    "DiffDiff.HonestDid.C77_none_partial",
    "DiffDiff.HonestDid.C77_repr_refuted",
    "DiffDiff.HonestDid.C77_negative_M_refuted",
    "DiffDiff.HonestDid.C77_validate"
   ],
   "note": "false: NaN intervals count as significant, breakdown above 10 reported as always significant, zero breakdown printed as None, negative M accepted by fit; proved: verdict on numeric intervals, what a missing breakdown does mean, constructor validation"
  },
  {
   "property": "C78",
   "status": "partial",
   "theorems": [
    "DiffDiff.Pretrends.C78_refuted",
    "DiffDiff.Pretrends.C78_name_refuted",
    "DiffDiff.Pretrends.C78_partial"
   ],
   "note": "False of the code: a plain MultiPeriodDiD fit never estimates pre-period effects, so fit refuses it (C78_refuted); with pre-period columns present and integer-named it is accepted (C78_partial)."
  },
  {
   "property": "C79",
   "status": "partial",
   "theorems": [
    "DiffDiff.Power.C79_two_periods_partial",
    "DiffDiff.Power.C79_panel_refuted",
    "DiffDiff.Power.C79_mde_too_small",
    "DiffDiff.Power.C79_split_ignored"
   ],
   "note": "Proved for two periods; refuted for panels with more than two periods (the split into pre and post is ignored and the variance is too small)."
  },
  {
   "property": "C80",
   "status": "partial",
   "theorems": [
    "DiffDiff.Diagnostics.C80_refuted",
    "DiffDiff.Diagnostics.C80_multi_period_refuted",
    "DiffDiff.Diagnostics.C80_partial",
    "DiffDiff.Diagnostics.C80_dispatch"
   ],
   "note": "False: fake-timing tests need several pre periods while the permutation and leave-one-out fits need a 0/1 time column, so no data set yields all of them (C80_refuted). Partial: one entry per pre period after the first, each the result or the error of that test."
  },
  {
   "property": "C81",
   "status": "partial",
   "theorems": [
    "DiffDiff.Diagnostics.C81_refuted",
    "DiffDiff.Diagnostics.C81_partial"
   ],
   "note": "False: the ever-treated units are not removed unless the caller does so. Partial: the exact rows used."
  },
  {
   "property": "C82",
   "status": "partial",
   "theorems": [
    "DiffDiff.Diagnostics.C82_effects",
    "DiffDiff.Diagnostics.C82_order",
    "DiffDiff.Diagnostics.C82_runs_iff",
    "DiffDiff.Diagnostics.C82_single_unit",
    "DiffDiff.Diagnostics.C82_fields",
    "DiffDiff.Diagnostics.C82_precision_refuted"
   ],
   "note": "Effects proved to be the refits without each treated unit; precision claim is false (C82_precision_refuted)."
  },
  {
   "property": "C83",
   "status": "partial",
   "theorems": [
    "DiffDiff.Prep.C83_indicator",
    "DiffDiff.Prep.C83_missing_is_control_refuted"
   ],
   "note": "The rule part is proved (C83_indicator); missing cells get 0, i.e. unknown status becomes control (C83_missing_is_control_refuted)."
  },
  {
   "property": "C84",
   "status": "proved",
   "theorems": [
    "DiffDiff.Prep.C84_event_time",
    "DiffDiff.Prep.C84_zero_refuted"
   ],
   "note": "C84_zero_refuted records that a date of 0 is not treated as never treated here, unlike in the staggered estimators."
  },
  {
   "property": "C85",
   "status": "proved",
   "theorems": [
    "DiffDiff.Prep.C85_summary_is_estimate",
    "DiffDiff.Prep.C85_line_present"
   ],
   "note": "Agreement of the summary line with the least-squares interaction coefficient (via the C10 theorems)."
  },
  {
   "property": "C86",
   "status": "proved",
   "theorems": [
    "DiffDiff.Prep.C86_cohorts"
   ],
   "note": "Distinct units counted over the rows of the combination; missing outcomes are not modelled."
  },
  {
   "property": "C87",
   "status": "partial",
   "theorems": [
    "DiffDiff.PrepRank.C87_candidates",
    "DiffDiff.PrepRank.C87_score",
    "DiffDiff.PrepRank.C87_fields",
    "DiffDiff.PrepRank.C87_trend_refuted"
   ],
   "note": "Selection, order, scores and the numbers of each line proved (C87_fields); sorting is a parameter with the hypothesis that it returns a score-sorted permutation. The reported trend is not a trend over time: it is the slope over the row number in input order, so it ignores gaps between periods and changes sign when the rows are listed in reverse (C87_trend_refuted)."
  },
  {
   "property": "C88",
   "status": "partial",
   "theorems": [
    "DiffDiff.Results.C88_did_dict",
    "DiffDiff.Results.C88_multi_dict",
    "DiffDiff.Results.C88_collision_refuted",
    "DiffDiff.Results.C88_multi_table",
    "DiffDiff.Results.C88_multi_summary",
    "DiffDiff.Results.C88_staggered_table",
    "DiffDiff.Results.C88_staggered_rows"
   ],
   "note": "Numbers are compared before formatting. C88_collision_refuted: periods that print the same overwrite each other in to_dict."
  },
  {
   "property": "C89",
   "status": "proved",
   "theorems": [
    "DiffDiff.Results.C89_weights"
   ],
   "note": "NaN weights are not modelled."
  },
  {
   "property": "C90",
   "status": "proved",
   "theorems": [
    "DiffDiff.TropFit.C90_counterfactual",
    "DiffDiff.TropFit.C90_selection",
    "DiffDiff.TropFit.C90_att_shift"
   ],
   "note": "For all tuning parameters including infinities, in float arithmetic with exact finite part."
  },
  {
   "property": "C91",
   "status": "partial",
   "theorems": [
    "DiffDiff.TropFit.C91_effect_partial",
    "DiffDiff.TropFit.C91_att_partial",
    "DiffDiff.TropFit.C91_level_shift_refuted"
   ],
   "note": "Needs an observed untreated period for the treated unit (refuted otherwise) and a first sweep that does not already meet the convergence test."
  },
  {
   "property": "C92",
   "status": "partial",
   "theorems": [
    "DiffDiff.TropFit.C92_missing_iff",
    "DiffDiff.TropFit.C92_missing_treatment_refuted"
   ],
   "note": "Exact condition for a missing estimate: one missing treated outcome makes it missing. Rows with missing treatment are used as untreated (refuted witness)."
  },
  {
   "property": "C93",
   "status": "proved",
   "theorems": [
    "DiffDiff.TropFit.C93_time",
    "DiffDiff.TropFit.C93_unit"
   ],
   "note": "The exponential is any positive increasing function with value 1 at 0."
  },
  {
   "property": "C94",
   "status": "proved",
   "theorems": [
    "DiffDiff.TropFit.C94_alpha_step",
    "DiffDiff.TropFit.C94_beta_step",
    "DiffDiff.TropFit.C94_descent",
    "DiffDiff.TropFit.C94_fixed_point"
   ],
   "note": "Given the factor matrix."
  },
  {
   "property": "C95",
   "status": "proved",
   "theorems": [
    "DiffDiff.TropFit.C95_unit_levels"
   ],
   "note": "Assumes that soft-thresholding maps the zero matrix to itself."
  },
  {
   "property": "C96",
   "status": "proved",
   "theorems": [
    "DiffDiff.TropJoint.C96_treated_periods",
    "DiffDiff.TropJoint.C96_least_squares",
    "DiffDiff.TropJoint.C96_fails_iff"
   ],
   "note": "Exact arithmetic; lstsq is assumed to return a minimiser. The factor-matrix loop is covered only by the failure criterion and by C97/C98."
  },
  {
   "property": "C97",
   "status": "proved",
   "theorems": [
    "DiffDiff.TropJoint.C97_fixed_tuning",
    "DiffDiff.TropJoint.C97_recovery"
   ],
   "note": ""
  },
  {
   "property": "C98",
   "status": "partial",
   "theorems": [
    "DiffDiff.TropJoint.C98_unit_levels_refuted",
    "DiffDiff.TropJoint.C98_fixed_tuning",
    "DiffDiff.TropJoint.C98_fit"
   ],
   "note": "Period levels, treatment shifts and (without unit decay) unit levels are proved, including tuning for period levels. Unit levels with decay are refuted (C98_unit_levels_refuted)."
  },
  {
   "property": "C99",
   "status": "proved",
   "theorems": [
    "DiffDiff.TropJoint.C99_score",
    "DiffDiff.TropJoint.C99_minimiser",
    "DiffDiff.TropJoint.C99_defaults",
    "DiffDiff.TropJoint.C99_infinity"
   ],
   "note": ""
  },
  {
   "property": "C100",
   "status": "partial",
   "theorems": [
    "DiffDiff.TropJoint.C100_missing_adoption_refuted",
    "DiffDiff.TropJoint.C100_accepts_iff",
    "DiffDiff.TropJoint.C100_same_panel"
   ],
   "note": "Exact acceptance set proved in terms of the first observed treated period. Refuted for unbalanced panels: a missing row at the common adoption date is reported as staggered adoption."
  },
  {
   "property": "C101",
   "status": "partial",
   "theorems": [
    "DiffDiff.TropJoint.C101_shape",
    "DiffDiff.TropJoint.C101_pre_only",
    "DiffDiff.TropJoint.C101_center_refuted"
   ],
   "note": "The documented centre is refuted: the reference point lies half a period after the centre of the treated block."
  },
  {
   "property": "C102",
   "status": "proved",
   "theorems": [
    "DiffDiff.TropJoint.C102_few",
    "DiffDiff.TropJoint.C102_variance",
    "DiffDiff.TropJoint.C102_left_out",
    "DiffDiff.TropJoint.C102_one_treated"
   ],
   "note": ""
  },
  {
   "property": "C103",
   "status": "partial",
   "theorems": [
    "DiffDiff.TropJoint.C103_two_step",
    "DiffDiff.TropJoint.C103_joint_partial",
    "DiffDiff.TropJoint.C103_joint_refuted"
   ],
   "note": "Proved for the two-step method. False for the joint method with unit decay (C103_joint_refuted): weights are computed once from the full panel. Partial: no decay over units, or equal weights."
  },
  {
   "property": "C104",
   "status": "partial",
   "theorems": [
    "DiffDiff.TropPerm.C104_score_partial",
    "DiffDiff.TropRust.C104_search",
    "DiffDiff.TropRust.C104_select_partial",
    "DiffDiff.TropRust.C104_fit_partial",
    "DiffDiff.TropRust.C104_treated_units_refuted",
    "DiffDiff.TropRust.C104_stored_score_refuted"
   ],
   "note": "Proved: same search given equal scores; same cell fit when the factor model is off and no other unit is treated in the target period. Refuted: leave-one-out predictions when another unit is treated in the target period (for every iteration limit of at least 2); stored score when an infinite value is selected. Not covered: small penalties, where the thresholds differ."
  },
  {
   "property": "C105",
   "status": "partial",
   "theorems": [
    "DiffDiff.TropFit.C105_interpolates",
    "DiffDiff.TropFit.C105_parallel_refuted"
   ],
   "note": "Proved: exact reproduction of weighted untreated cells, no factor in unused cells, independence of iteration limit and tolerance. Refuted: recovery of the effect on exactly parallel outcomes."
  },
  {
   "property": "C106",
   "status": "proved",
   "theorems": [
    "DiffDiff.SimPower.C106_defined",
    "DiffDiff.SimPower.C106_power",
    "DiffDiff.SimPower.C106_primary",
    "DiffDiff.SimPower.C106_range",
    "DiffDiff.SimPower.C106_alpha_mono",
    "DiffDiff.SimPower.C106_prefix",
    "DiffDiff.SimPower.C106_kinds",
    "DiffDiff.SimPower.C106_supported",
    "DiffDiff.SimPower.C106_callaway_refuted",
    "DiffDiff.SimPower.C106_failures_refuted",
    "DiffDiff.SimPower.C106_order_refuted"
   ],
   "note": "Exact existence condition, power formula, range, monotonicity in alpha, prefix stability and choice of the headline effect proved for every generator and estimator. Refuted: failures are left out of the denominator; results with only overall_* attributes (CallawaySantAnna, SunAbraham) always end in an error; the power of an effect size depends on its position in the list."
  },
  {
   "property": "C107",
   "status": "partial",
   "theorems": [
    "DiffDiff.SimPower.C107_coverage",
    "DiffDiff.SimPower.C107_bias",
    "DiffDiff.SimPower.C107_missing",
    "DiffDiff.SimPower.C107_rmse_partial",
    "DiffDiff.SimPower.C107_rmse_refuted"
   ],
   "note": "Coverage, mean and bias proved; missing estimates propagate; rmse squared equals the mean squared error plus a strictly positive term whenever two estimates differ (refuted as root mean squared error)."
  },
  {
   "property": "C108",
   "status": "proved",
   "theorems": [
    "DiffDiff.TropPerm.C108_cell",
    "DiffDiff.TropPerm.C108_att",
    "DiffDiff.TropPerm.C108_score",
    "DiffDiff.TropPerm.C108_fit",
    "DiffDiff.TropPerm.C108_boot_order",
    "DiffDiff.TropPerm.C108_boot_identity",
    "DiffDiff.TropPerm.C108_rust_score",
    "DiffDiff.TropPerm.C108_subsample_refuted"
   ],
   "note": "The statement as written is proved; the refuted theorems concern what the statement excludes. Proved for cell effects, average effect, full score, selection and the compiled bootstrap, assuming that singular value thresholding commutes with column rearrangements. Refuted for subsampled scores."
  },
  {
   "property": "C109",
   "status": "partial",
   "theorems": [
    "DiffDiff.Trends.C109_slope",
    "DiffDiff.Trends.C109_empty",
    "DiffDiff.Trends.C109_default",
    "DiffDiff.Trends.C109_shift",
    "DiffDiff.Trends.C109_verdict",
    "DiffDiff.Trends.C109_swap",
    "DiffDiff.Trends.C109_time",
    "DiffDiff.Trends.C109_parallel_partial",
    "DiffDiff.Trends.C109_parallel_refuted",
    "DiffDiff.Trends.C109_exact_refuted"
   ],
   "note": "Slopes, standard errors, default periods, verdict rule, failure condition and invariances proved for all data. Parallel group means give a zero difference when both groups are spread over the periods alike (partial); refuted otherwise, and no verdict for two exact lines with different slopes (refuted)."
  },
  {
   "property": "C110",
   "status": "proved",
   "theorems": [
    "DiffDiff.Trends.C110_unit_levels",
    "DiffDiff.Trends.C110_group_levels",
    "DiffDiff.Trends.C110_scale",
    "DiffDiff.Trends.C110_swap",
    "DiffDiff.Trends.C110_endpoints",
    "DiffDiff.Trends.C110_which_changes",
    "DiffDiff.Trends.C110_defined",
    "DiffDiff.Trends.C110_df",
    "DiffDiff.Trends.C110_margin",
    "DiffDiff.Trends.C110_nonpos",
    "DiffDiff.Trends.C110_interval",
    "DiffDiff.Trends.C110_mono",
    "DiffDiff.Trends.C110_default",
    "DiffDiff.Trends.C110_parallel_refuted",
    "DiffDiff.Trends.C110_gap_refuted",
    "DiffDiff.Trends.C110_bump_refuted"
   ],
   "note": "Verdict condition, margin, interval, monotonicity, degrees of freedom, default margin bound, invariances and end-point formula proved. Refuted: exact parallel motion gets no verdict, gaps in observation create a difference, jumps inside the window do not matter."
  },
  {
   "property": "C111",
   "status": "proved",
   "theorems": [
    "DiffDiff.Trends.C111_verdict",
    "DiffDiff.Trends.C111_range",
    "DiffDiff.Trends.C111_mean",
    "DiffDiff.Trends.C111_same",
    "DiffDiff.Trends.C111_seen",
    "DiffDiff.Trends.C111_ratio",
    "DiffDiff.Trends.C111_scale",
    "DiffDiff.Trends.C111_zero_refuted",
    "DiffDiff.Trends.C111_noperm_refuted"
   ],
   "note": "Verdict rule, range, mean bound, equal samples, scale and kept arrangement proved for every set of permutations. Refuted: the p-value can be zero; without permutations the verdict is always negative."
  },
  {
   "property": "C112",
   "status": "proved",
   "theorems": [
    "DiffDiff.Dgp.C112_complete",
    "DiffDiff.Dgp.C112_counterfactual",
    "DiffDiff.Dgp.C112_staggered",
    "DiffDiff.Dgp.C112_factor_ddd",
    "DiffDiff.Dgp.C112_share",
    "DiffDiff.Dgp.C112_checks",
    "DiffDiff.Dgp.C112_event_time",
    "DiffDiff.Dgp.C112_factor_draws"
   ],
   "note": "Random draws are an arbitrary function of the position in the stream; the distribution of the draws is not used."
  },
  {
   "property": "C113",
   "status": "proved",
   "theorems": [
    "DiffDiff.Dgp.C113_did",
    "DiffDiff.Dgp.C113_accepted",
    "DiffDiff.Dgp.C113_did_exact",
    "DiffDiff.Dgp.C113_panel",
    "DiffDiff.Dgp.C113_event",
    "DiffDiff.Dgp.C113_trends"
   ],
   "note": "Estimator as any least-squares solution."
  },
  {
   "property": "C114",
   "status": "proved",
   "theorems": [
    "DiffDiff.Dgp.C114_period_effect",
    "DiffDiff.Dgp.C114_exact",
    "DiffDiff.Dgp.C114_default"
   ],
   "note": "Estimator as any least-squares solution of the event-study design."
  },
  {
   "property": "C115",
   "status": "proved",
   "theorems": [
    "DiffDiff.Dgp.C115_att",
    "DiffDiff.Dgp.C115_exact",
    "DiffDiff.Dgp.C115_reported",
    "DiffDiff.Dgp.C115_overall",
    "DiffDiff.Dgp.C115_default_cohorts",
    "DiffDiff.Dgp.C115_universal_refuted"
   ],
   "note": "No covariates, no anticipation; positive statement excludes the refuted case (universal base with not-yet-treated controls before treatment)."
  },
  {
   "property": "C116",
   "status": "proved",
   "theorems": [
    "DiffDiff.Dgp.C116_cells",
    "DiffDiff.Dgp.C116_reg_ipw",
    "DiffDiff.Dgp.C116_dr",
    "DiffDiff.Dgp.C116_exact",
    "DiffDiff.Dgp.C116_covariates"
   ],
   "note": "The doubly robust identity uses the equal cell sizes of the generated data."
  },
  {
   "property": "C117",
   "status": "proved",
   "theorems": [
    "DiffDiff.Dgp.C117_weights",
    "DiffDiff.Dgp.C117_fit",
    "DiffDiff.Dgp.C117_exact",
    "DiffDiff.Dgp.C117_noise_free_refuted"
   ],
   "note": "Weights are those computed by the modelled optimisers; the refuted part is the noise-free claim with factors present."
  },
  {
   "property": "C118",
   "status": "proved",
   "theorems": [
    "DiffDiff.CSBoot.C118_weights",
    "DiffDiff.CSBoot.C118_overall",
    "DiffDiff.CSBoot.C118_event",
    "DiffDiff.CSBoot.C118_group",
    "DiffDiff.CSBoot.C118_gt",
    "DiffDiff.CSBoot.C118_single",
    "DiffDiff.CSBoot.C118_points",
    "DiffDiff.CSBoot.C118_update",
    "DiffDiff.CSBoot.C118_t",
    "DiffDiff.CSBoot.C118_reported",
    "DiffDiff.CSBoot.C118_exact",
    "DiffDiff.CSBoot.C118_shift",
    "DiffDiff.CSBoot.C118_overall_variance_refuted",
    "DiffDiff.CSBoot.C118_ci_estimate_refuted"
   ],
   "note": "The statement as written is proved; the refuted theorems concern what the statement excludes. Two readings are refuted: the bootstrap error of the overall effect omits the term for estimated cohort weights (it can be zero where the analytic one is positive), and the percentile interval need not contain the estimate."
  },
  {
   "property": "C119",
   "status": "partial",
   "theorems": [
    "DiffDiff.SdidFit.C119_accepts",
    "DiffDiff.SdidFit.C119_sample",
    "DiffDiff.SdidFit.C119_row_order",
    "DiffDiff.SdidFit.C119_post_order",
    "DiffDiff.SdidFit.C119_row_order_refuted",
    "DiffDiff.SdidFit.C119_pre_before_post_refuted",
    "DiffDiff.SdidFit.C119_repeated_post_refuted",
    "DiffDiff.SdidFit.C119_reported"
   ],
   "note": "Positive claims proved (C119_accepts, C119_sample, C119_row_order, C119_post_order). Row order matters when the treatment column varies within units (C119_row_order_refuted); pre periods may lie after post periods (C119_pre_before_post_refuted); a repeated post period counts twice (C119_repeated_post_refuted)."
  },
  {
   "property": "C120",
   "status": "partial",
   "theorems": [
    "DiffDiff.SdidFit.C120_effect",
    "DiffDiff.SdidFit.C120_period_effects",
    "DiffDiff.SdidFit.C120_unit_order",
    "DiffDiff.SdidFit.C120_unit_effects_refuted"
   ],
   "note": "Positive claims proved; for the NumPy backend the step size (one over a spectral norm) is a parameter assumed invariant. Unit effects do change the estimate (C120_unit_effects_refuted)."
  },
  {
   "property": "C121",
   "status": "partial",
   "theorems": [
    "DiffDiff.SdidFit.C121_additive",
    "DiffDiff.SdidFit.C121_draw",
    "DiffDiff.SdidFit.C121_identity_draw",
    "DiffDiff.SdidFit.C121_draw_order",
    "DiffDiff.SdidFit.C121_bootstrap",
    "DiffDiff.SdidFit.C121_bootstrap_exact",
    "DiffDiff.SdidFit.C121_bootstrap_effect",
    "DiffDiff.SdidFit.C121_placebo_effect",
    "DiffDiff.SdidFit.C121_placebo_variance",
    "DiffDiff.SdidFit.C121_few_controls_refuted",
    "DiffDiff.SdidFit.C121_no_draws_refuted",
    "DiffDiff.SdidFit.C121_single_draw_refuted"
   ],
   "note": "Positive claims proved. Degenerate cases report a standard error of 0 with p-value 1 (C121_few_controls_refuted, C121_single_draw_refuted), and n_bootstrap=0 raises ZeroDivisionError although an error message recommends it (C121_no_draws_refuted)."
  },
  {
   "property": "C122",
   "status": "proved",
   "theorems": [
    "DiffDiff.SdidCov.C122_invariance",
    "DiffDiff.SdidCov.C122_bias",
    "DiffDiff.SdidCov.C122_null",
    "DiffDiff.SdidCov.C122_underdetermined",
    "DiffDiff.SdidCov.C122_absorbed_refuted",
    "DiffDiff.SdidCov.C122_irrelevant_refuted"
   ],
   "note": "Invariance, zero without effect, exact bias formula and the row requirement are proved; that irrelevant covariates are harmless, and that a covariate without effect keeps an exact estimate exact, are refuted."
  },
  {
   "property": "C123",
   "status": "partial",
   "theorems": [
    "DiffDiff.Plot.C123_points",
    "DiffDiff.Plot.C123_order",
    "DiffDiff.Plot.C123_fails",
    "DiffDiff.Plot.C123_reference",
    "DiffDiff.Plot.C123_interval",
    "DiffDiff.Plot.C123_positions",
    "DiffDiff.Plot.C123_shade",
    "DiffDiff.Plot.C123_inferred",
    "DiffDiff.Plot.C123_reported_interval_refuted",
    "DiffDiff.Plot.C123_marker_refuted",
    "DiffDiff.Plot.C123_duplicate_refuted",
    "DiffDiff.Plot.C123_unknown_reference_refuted"
   ],
   "note": "Points, order, failure, positions, error bars, shading, inferred and explicit reference proved. Refuted readings: the drawn interval uses the normal critical value, not the reported interval; results without a marked reference fall back to period -1; a table with repeated periods draws the last row twice; a reference that is not among the effects is ignored silently."
  },
  {
   "property": "C124",
   "status": "proved",
   "theorems": [
    "DiffDiff.LinReg.C124_pair",
    "DiffDiff.LinReg.C124_pair_span",
    "DiffDiff.LinReg.C124_pair_outcome",
    "DiffDiff.LinReg.C124_reparametrize",
    "DiffDiff.LinReg.C124_treatment",
    "DiffDiff.LinReg.C124_rescale",
    "DiffDiff.LinReg.C124_outcome",
    "DiffDiff.LinReg.C124_units",
    "DiffDiff.LinReg.C124_span",
    "DiffDiff.LinReg.C124_predict",
    "DiffDiff.LinReg.C124_classical_psd",
    "DiffDiff.LinReg.C124_zero_design_refuted",
    "DiffDiff.LinReg.C124_intercept",
    "DiffDiff.LinReg.C124_call_ids",
    "DiffDiff.LinReg.C124_adjusted",
    "DiffDiff.LinReg.C124_identified",
    "DiffDiff.LinReg.C124_pruning",
    "DiffDiff.LinReg.C124_runs",
    "DiffDiff.LinReg.C124_same_span",
    "DiffDiff.LinReg.C124_same_runs",
    "DiffDiff.LinReg.C124_outcome_rank"
   ],
   "note": "The statement as written is proved; the refuted theorems concern what the statement excludes. Proved for every full-rank design, invertible change of regressors and covariance option (classical, HC1, clustered); with redundant columns, for every coefficient that is not a combination of the others (C124_identified, C124_pruning, C124_same_span) and every pair of them (C124_pair). An all-zero design raises an IndexError instead of returning NaN coefficients (C124_zero_design_refuted)."
  },
  {
   "property": "C125",
   "status": "partial",
   "theorems": [
    "DiffDiff.DidFit.C125_coefficient",
    "DiffDiff.DidFit.C125_robust",
    "DiffDiff.DidFit.C125_cluster",
    "DiffDiff.DidFit.C125_classical",
    "DiffDiff.DidFit.C125_point",
    "DiffDiff.DidFit.C125_se_robust",
    "DiffDiff.DidFit.C125_se_classical",
    "DiffDiff.DidFit.C125_se_cluster",
    "DiffDiff.DidFit.C125_inference",
    "DiffDiff.DidFit.C125_fails",
    "DiffDiff.DidFit.C125_panel",
    "DiffDiff.DidFit.C125_absorb_refuted"
   ],
   "note": "All closed forms proved for occupied cells, for every option. The reading that absorb equals unit dummies is false: in a two-period panel the absorbed variance is exactly half (C125_absorb_refuted). Missing: covariates and the wild bootstrap branch (separate properties)."
  },
  {
   "property": "C126",
   "status": "partial",
   "theorems": [
    "DiffDiff.Logit.C126_gradient",
    "DiffDiff.Logit.C126_range",
    "DiffDiff.Logit.C126_moments",
    "DiffDiff.Logit.C126_recode",
    "DiffDiff.Logit.C126_separation",
    "DiffDiff.Logit.C126_mle",
    "DiffDiff.Logit.C126_strata",
    "DiffDiff.Logit.C126_ipw_strata",
    "DiffDiff.Logit.C126_dr_strata",
    "DiffDiff.Logit.C126_criterion_refuted"
   ],
   "note": "All parts proved for exact convergence (and the moment equations for any tolerance). The converged point need not minimise the clipped criterion the optimizer receives (C126_criterion_refuted). Missing: that BFGS converges; rounding; the fallback to unconditional scores on an exception is not modelled."
  },
  {
   "property": "C127",
   "status": "partial",
   "theorems": [
    "DiffDiff.TropJointRust.C127_factor_loop",
    "DiffDiff.TropJointRust.C127_same_search",
    "DiffDiff.TropJointRust.C127_same_failure",
    "DiffDiff.TropJointRust.C127_low_step",
    "DiffDiff.TropJointRust.C127_low_step_refuted",
    "DiffDiff.TropJointRust.C127_bootstrap_strata",
    "DiffDiff.TropJointRust.C127_bootstrap_value",
    "DiffDiff.TropJointRust.C127_stopped",
    "DiffDiff.TropJointRust.C127_bootstrap_se",
    "DiffDiff.TropJointRust.C127_no_replicate_refuted",
    "DiffDiff.TropJointRust.C127_passes_refuted",
    "DiffDiff.TropJointRust.C127_zero_unit_refuted",
    "DiffDiff.TropJointRust.C127_weights",
    "DiffDiff.TropJointRust.C127_selected",
    "DiffDiff.TropJointRust.C127_zero_unit_rejected",
    "DiffDiff.TropJointRust.C127_descent",
    "DiffDiff.TropJointRust.C127_fixed_point"
   ],
   "note": "Weights, failure condition, factor step, search, resampling and standard error proved equal to the Python code or to the stated formula, with exact side conditions. Refuted: fifty passes do not reach the fit on wide panels (the score differs by almost 1); lambda_unit = 0 with a unit without pre-treatment data can only be selected by the Python search; the factor step differs when the heaviest cell is missing; without replicates the standard error is 0. Missing: a bound on the distance to the fit after fifty passes in general; whole runs with a factor matrix are not compared (the compiled code solves once more after the last factor update)."
  },
  {
   "property": "C128",
   "status": "partial",
   "theorems": [
    "DiffDiff.TripleFit.C128_point",
    "DiffDiff.TripleFit.C128_point_dr_partial",
    "DiffDiff.TripleFit.C128_counts",
    "DiffDiff.TripleFit.C128_se_robust",
    "DiffDiff.TripleFit.C128_se_classical",
    "DiffDiff.TripleFit.C128_se_dr",
    "DiffDiff.TripleFit.C128_se_balanced",
    "DiffDiff.TripleFit.C128_inference",
    "DiffDiff.TripleFit.C128_degenerate",
    "DiffDiff.TripleFit.C128_fails",
    "DiffDiff.TripleFit.C128_weighting_total",
    "DiffDiff.TripleFit.C128_cluster_inert",
    "DiffDiff.TripleFit.C128_robust_inert",
    "DiffDiff.TripleFit.C128_cluster_refuted",
    "DiffDiff.TripleFit.C128_copies_dr",
    "DiffDiff.TripleFit.C128_single_rows_refuted",
    "DiffDiff.TripleFit.C128_reg_covariates",
    "DiffDiff.TripleFit.C128_cell_columns",
    "DiffDiff.TripleFit.C128_strict_r2",
    "DiffDiff.TripleFit.C128_ipw_covariates",
    "DiffDiff.TripleFit.C128_dr_covariates",
    "DiffDiff.TripleFit.C128_scores",
    "DiffDiff.TripleFit.C128_r2"
   ],
   "note": "Proved: failures, effect of reg and ipw, covariate formula of reg, counts, closed forms of the standard errors, equality in balanced data, degrees of freedom. False and refuted: cluster-robust standard errors (C128_cluster_inert, C128_cluster_refuted: the squared standard error is at most 1/r of the clustered one with r copies per cluster); agreement of p-value and interval (C128_single_rows_refuted; an undefined standard error also gives p = 1, C128_degenerate); covariates in the outcome model with rank_deficient_action=\"error\" (C128_strict_r2). For the default method the effect equals the triple difference only under equal shares (C128_point_dr_partial, C36). Standard errors of reg with covariates and of ipw have no closed form here."
  },
  {
   "property": "C129",
   "status": "proved",
   "theorems": [
    "DiffDiff.DatasetCache.C129_history",
    "DiffDiff.DatasetCache.C129_stable",
    "DiffDiff.DatasetCache.C129_forced",
    "DiffDiff.DatasetCache.C129_fallback_iff",
    "DiffDiff.DatasetCache.C129_refines",
    "DiffDiff.DatasetCache.C129_crash_refuted",
    "DiffDiff.DatasetCache.C129_write_failed_refuted",
    "DiffDiff.DatasetCache.C129_repairs",
    "DiffDiff.DatasetCache.C129_torn_read_refuted",
    "DiffDiff.DatasetCache.C129_clear_race_refuted",
    "DiffDiff.DatasetCache.C129_concurrent",
    "DiffDiff.DatasetCache.C129_concurrent_load"
   ],
   "note": "All parts of the statement, including the negations: truncated cache after a crash or a failed write, torn reads during another process's write, missing-file error when the cache is cleared during a load."
  },
  {
   "property": "C130",
   "status": "proved",
   "theorems": [
    "DiffDiff.Datasets.C130_castle_effect",
    "DiffDiff.Datasets.C130_divorce_effect",
    "DiffDiff.Datasets.C130_mpdta_effect",
    "DiffDiff.Datasets.C130_castle_years",
    "DiffDiff.Datasets.C130_divorce_years",
    "DiffDiff.Datasets.C130_card_krueger",
    "DiffDiff.Datasets.C130_card_krueger_fails",
    "DiffDiff.Datasets.C130_cohort",
    "DiffDiff.Datasets.C130_castle",
    "DiffDiff.Datasets.C130_castle_refuted",
    "DiffDiff.Datasets.C130_divorce_first",
    "DiffDiff.Datasets.C130_divorce_given",
    "DiffDiff.Datasets.C130_divorce_consistent",
    "DiffDiff.Datasets.C130_construct_card_krueger",
    "DiffDiff.Datasets.C130_construct_castle",
    "DiffDiff.Datasets.C130_construct_divorce",
    "DiffDiff.Datasets.C130_construct_mpdta",
    "DiffDiff.Datasets.C130_reproducible",
    "DiffDiff.Datasets.C130_global_generator_refuted",
    "DiffDiff.Datasets.C130_population_refuted",
    "DiffDiff.Datasets.C130_always_treated_refuted",
    "DiffDiff.Datasets.C130_names"
   ],
   "note": "All parts of the statement, including the negations. Parsing of the file and renames that collide with existing columns are not modelled."
  },
  {
   "property": "C131",
   "status": "proved",
   "theorems": [
    "DiffDiff.PowerCurve.C131_rows",
    "DiffDiff.PowerCurve.C131_defined",
    "DiffDiff.PowerCurve.C131_default_grid",
    "DiffDiff.PowerCurve.C131_first",
    "DiffDiff.PowerCurve.C131_range_refuted",
    "DiffDiff.PowerCurve.C131_reaches",
    "DiffDiff.PowerCurve.C131_less_refuted",
    "DiffDiff.PowerCurve.C131_size_rows",
    "DiffDiff.PowerCurve.C131_size_defined",
    "DiffDiff.PowerCurve.C131_size_monotone",
    "DiffDiff.PowerCurve.C131_default_sizes",
    "DiffDiff.PowerCurve.C131_required_missing_refuted",
    "DiffDiff.PowerCurve.C131_empty_refuted",
    "DiffDiff.PowerCurve.C131_small_refuted",
    "DiffDiff.PowerCurve.C131_allocation_refuted",
    "DiffDiff.PowerCurve.C131_plot_data",
    "DiffDiff.PowerCurve.C131_marker",
    "DiffDiff.PowerCurve.C131_true_effect_refuted",
    "DiffDiff.PowerCurve.C131_unordered_refuted",
    "DiffDiff.PowerCurve.C131_unordered_off_line_refuted",
    "DiffDiff.PowerCurve.C131_plot_defined",
    "DiffDiff.PowerCurve.C131_empty_plot_refuted"
   ],
   "note": "The statement includes the negations (documented range, 'less' alternative, empty default table, sizes below four, split, unordered effects, true effect drawn as minimum detectable effect); they are the theorems named _refuted."
  },
  {
   "property": "C132",
   "status": "proved",
   "theorems": [
    "DiffDiff.PretrendsReport.C132_scale",
    "DiffDiff.PretrendsReport.C132_verdict",
    "DiffDiff.PretrendsReport.C132_agree",
    "DiffDiff.PretrendsReport.C132_precision_refuted",
    "DiffDiff.PretrendsReport.C132_noise_refuted",
    "DiffDiff.PretrendsReport.C132_convenience",
    "DiffDiff.PretrendsReport.C132_custom_refuted",
    "DiffDiff.PretrendsReport.C132_plot",
    "DiffDiff.PretrendsReport.C132_target_refuted",
    "DiffDiff.PretrendsReport.C132_target_none",
    "DiffDiff.PretrendsReport.C132_single_refuted"
   ],
   "note": "The statement includes the negations (precision, noise in an unused pre-period, pattern 'custom', target line, single result); they are the theorems named _refuted. The covariance is positive definite where the verdict is compared across scales."
  },
  {
   "property": "C133",
   "status": "partial",
   "theorems": [
    "DiffDiff.PlotMore.C133_honest_marks",
    "DiffDiff.PlotMore.C133_honest_own",
    "DiffDiff.PlotMore.C133_honest_same_refuted",
    "DiffDiff.PlotMore.C133_honest_defined",
    "DiffDiff.PlotMore.C133_honest_plot_refuted",
    "DiffDiff.PlotMore.C133_sensitivity_rows",
    "DiffDiff.PlotMore.C133_sensitivity_line",
    "DiffDiff.PlotMore.C133_sensitivity_order_refuted",
    "DiffDiff.PlotMore.C133_sensitivity_plot",
    "DiffDiff.PlotMore.C133_groups_colours",
    "DiffDiff.PlotMore.C133_groups_colours_refuted",
    "DiffDiff.PlotMore.C133_groups_lines",
    "DiffDiff.PlotMore.C133_groups_default",
    "DiffDiff.PlotMore.C133_groups_points",
    "DiffDiff.PlotMore.C133_groups_level_refuted",
    "DiffDiff.PlotMore.C133_bacon_points",
    "DiffDiff.PlotMore.C133_bacon_averages",
    "DiffDiff.PlotMore.C133_bacon_bars",
    "DiffDiff.PlotMore.C133_bacon_colours",
    "DiffDiff.PlotMore.C133_bacon_summary"
   ],
   "note": "False of the code for the honest event-study plot (a fit never fills in per-period bounds, so all periods get the same interval, and the call fails when an estimate lies outside it), for unsorted sensitivity grids, for more than ten cohorts and for intervals at a level other than the plot's; proved: marks, own bounds when present, exact success condition, sensitivity rows, line and layers, cohort lines and points, Bacon points, averages, bars and summary."
  },
  {
   "property": "C134",
   "status": "partial",
   "theorems": [
    "DiffDiff.TropBoot.C134_unit_order",
    "DiffDiff.TropBoot.C134_ids",
    "DiffDiff.TropBoot.C134_no_duplicates",
    "DiffDiff.TropBoot.C134_periods",
    "DiffDiff.TropBoot.C134_replicate",
    "DiffDiff.TropBoot.C134_all_periods",
    "DiffDiff.TropBoot.C134_strata",
    "DiffDiff.TropBoot.C134_standard_error",
    "DiffDiff.TropBoot.C134_same_panel",
    "DiffDiff.TropBoot.C134_balanced",
    "DiffDiff.TropBoot.C134_window_refuted",
    "DiffDiff.TropBoot.C134_undrawn_refuted"
   ],
   "note": "False in two respects, both refuted: the number of treated periods is not recomputed when an unbalanced draw loses periods, so an identified replicate is dropped or its window shifts; units with treatment missing throughout count as controls but are never drawn. Proved otherwise; equality with the drawn panel needs an identified effect (HasRect) and numerical routines that are exact."
  },
  {
   "property": "C135",
   "status": "partial",
   "theorems": [
    "DiffDiff.TwfeWarn.C135_warns_iff",
    "DiffDiff.TwfeWarn.C135_count",
    "DiffDiff.TwfeWarn.C135_adoption",
    "DiffDiff.TwfeWarn.C135_row_order",
    "DiffDiff.TwfeWarn.C135_group_silent",
    "DiffDiff.TwfeWarn.C135_late_entry_refuted"
   ],
   "note": "Proved, except that a late-entering treated unit is reported as a separate cohort (C135_late_entry_refuted). With a time-constant group indicator in a balanced panel the check never warns (C135_group_silent)."
  },
  {
   "property": "C136",
   "status": "proved",
   "theorems": [
    "DiffDiff.SunAb.C136_group_time",
    "DiffDiff.SunAb.C136_event_study",
    "DiffDiff.SunAb.C136_varying_pre_refuted",
    "DiffDiff.SunAb.C136_not_yet_refuted",
    "DiffDiff.SunAb.C136_anticipation_refuted",
    "DiffDiff.SunAb.C136_horizon_refuted",
    "DiffDiff.SunAb.C136_overall",
    "DiffDiff.SunAb.C136_cohort_effects"
   ],
   "note": "The statement as written is proved; the refuted theorems concern what the statement excludes. Equality of cohort effects, event studies and overall effects proved for all balanced panels within the 20-period horizon; false for pre-treatment effects with a varying base, not-yet-treated controls, overall effects with anticipation and event times beyond 20 (refuted). The regression routine is any one that returns a least squares solution on independent columns."
  },
  {
   "property": "C137",
   "status": "partial",
   "theorems": [
    "DiffDiff.Block.C137_did",
    "DiffDiff.Block.C137_multi",
    "DiffDiff.Block.C137_bacon",
    "DiffDiff.Block.C137_callaway",
    "DiffDiff.Block.C137_sunab",
    "DiffDiff.Block.C137_difference",
    "DiffDiff.Block.C137_one_number_refuted",
    "DiffDiff.Block.C137_twfe_refuted"
   ],
   "note": "Static estimators (DifferenceInDifferences, MultiPeriodDiD, BaconDecomposition) agree with each other, dynamic ones (CallawaySantAnna, SunAbraham) agree with each other; the two families differ by exactly the deviation of the last pre period from the average pre period (C137_difference) and agree with one pre period. False otherwise (C137_one_number_refuted), and TwoWayFixedEffects reports n0/(n1+2n0) of the effect in two-period panels (C137_twfe_refuted). SyntheticDiD and TROP are not part of the statement."
  },
  {
   "property": "C138",
   "status": "partial",
   "theorems": [
    "DiffDiff.Reports.C138_leave_one_out",
    "DiffDiff.Reports.C138_honest",
    "DiffDiff.Reports.C138_nan_refuted",
    "DiffDiff.Reports.C138_negative_M_refuted",
    "DiffDiff.Reports.C138_restriction",
    "DiffDiff.Reports.C138_robust_partial",
    "DiffDiff.Reports.C138_robust_refuted",
    "DiffDiff.Reports.C138_never_refuted",
    "DiffDiff.Reports.C138_always_partial",
    "DiffDiff.Reports.C138_always_refuted",
    "DiffDiff.Reports.C138_nan_always_refuted",
    "DiffDiff.Reports.C138_sensitivity_table",
    "DiffDiff.Reports.C138_placebo_partial",
    "DiffDiff.Reports.C138_placebo_refuted",
    "DiffDiff.Reports.C138_placebo_nan_refuted",
    "DiffDiff.Reports.C138_power",
    "DiffDiff.Reports.C138_power_refuted"
   ],
   "note": "True for intervals that contain a number, for sensitivity profiles with a threshold up to the bisection error and up to the last grid value, for placebo tests at 5% with a p-value, and for finite minimum detectable violations. False otherwise: a NaN interval is reported as NEGATIVE and robust, a negative M as POSITIVE, no grid value significant as \"robust up to M = 0\", a grid that ends early as \"always significant\", p between 0.05 and alpha with the wrong relation, a NaN p-value as \"consistent\", and an unreachable search limit as \"would need violations of inf\"."
  },
  {
   "property": "C139",
   "status": "proved",
   "theorems": [
    "DiffDiff.Bacon.C139_bacon",
    "DiffDiff.Bacon.C139_bacon_refuted",
    "DiffDiff.CS.C139_cs_effect",
    "DiffDiff.CS.C139_cs",
    "DiffDiff.CS.C139_cs_overall_var",
    "DiffDiff.CS.C139_cs_refuted",
    "DiffDiff.SunAb.C139_sunab",
    "DiffDiff.SunAb.C139_sunab_refuted"
   ],
   "note": "Holds for shifts that keep the sign of every date (the proviso of the statement); the refuted theorems show what happens otherwise."
  },
  {
   "property": "C140",
   "status": "proved",
   "theorems": [
    "DiffDiff.Bacon.C140_bacon",
    "DiffDiff.Bacon.C140_bacon_effects",
    "DiffDiff.Bacon.C140_bacon_effects_refuted",
    "DiffDiff.CS.C140_cs",
    "DiffDiff.CS.C140_cs_aggregate_var",
    "DiffDiff.CS.C140_cs_bootstrap",
    "DiffDiff.Inference.C140_inference",
    "DiffDiff.SunAb.C140_sunab",
    "DiffDiff.SunAb.C140_sunab_effects",
    "DiffDiff.SunAb.C140_sunab_effects_refuted"
   ],
   "note": "Unit and period constants need balanced panels for SunAbraham and BaconDecomposition; refuted theorems give panels with gaps. The regression routine of SunAbraham is a parameter assumed to respect units (shown for least squares on one column). Rounding is not modelled."
  },
  {
   "property": "C141",
   "status": "proved",
   "theorems": [
    "DiffDiff.CS.C141_data_used",
    "DiffDiff.CS.C141_other_cohorts",
    "DiffDiff.CS.C141_later_data",
    "DiffDiff.CS.C141_later_data_universal",
    "DiffDiff.CS.C141_other_cohorts_refuted"
   ],
   "note": "For the two control-group options and both base-period modes without covariates."
  },
  {
   "property": "C142",
   "status": "partial",
   "theorems": [
    "DiffDiff.TropBoot.C142_aborts",
    "DiffDiff.TropBoot.C142_positions",
    "DiffDiff.TropBoot.C142_blocks_partial",
    "DiffDiff.TropBoot.C142_standard_error",
    "DiffDiff.TropBoot.C142_names_refuted",
    "DiffDiff.TropBoot.C142_aborts_refuted",
    "DiffDiff.TropBoot.C142_periods_refuted"
   ],
   "note": "Proved: replicate equals the two-step estimate on the drawn histories under lambda_unit = 0, simultaneous adoption and block-sorted names (C142_blocks_partial), or whenever treatment columns match by position (C142_positions); exact condition under which a replicate aborts fit (C142_aborts); standard error and warning (C142_standard_error). The full claim is false of the code: C142_names_refuted, C142_aborts_refuted, C142_periods_refuted."
  },
  {
   "property": "C143",
   "status": "partial",
   "theorems": [
    "DiffDiff.Svd.C143_same_solution",
    "DiffDiff.Svd.C143_least_squares_iff",
    "DiffDiff.Svd.C143_normal_equations_bound",
    "DiffDiff.Svd.C143_loss_of_fit",
    "DiffDiff.Svd.C143_minimum_norm",
    "DiffDiff.Svd.C143_backend_independent",
    "DiffDiff.Svd.C143_skip_coefficients",
    "DiffDiff.Svd.C143_least_squares_partial",
    "DiffDiff.Svd.C143_kept_independent",
    "DiffDiff.Svd.C143_collinear_detected",
    "DiffDiff.Svd.C143_dropped_near_span",
    "DiffDiff.Svd.C143_not_least_squares_refuted",
    "DiffDiff.Svd.C143_skip_refuted",
    "DiffDiff.Svd.C143_units_refuted"
   ],
   "note": "Partial (parts of the claim are false). Proved for every SVD: the truncated solution and the effective rank do not depend on the decomposition (C143_same_solution), so solve_ols on the checked path is the same function with and without the compiled backend (C143_backend_independent; no missing cluster ids), and with skip_rank_check coefficients, residuals and fitted values agree (C143_skip_coefficients). The solution is least squares iff the outcome is orthogonal to the cut-off directions, with exact loss of fit and a bound on the normal equations; minimum norm when nothing nonzero is cut off. Kept columns are independent, exact collinearity is always detected, dropped columns are within rcond of the span of the kept ones. False: least squares without the conditioning hypothesis (QR accepts what the SVD cuts off), agreement of the covariance with skip_rank_check, independence of units (rescaling a covariate by 1e8 turns the treatment coefficient into NaN)."
  },
  {
   "property": "C144",
   "status": "proved",
   "theorems": [
    "DiffDiff.CSRows.C144_row_order",
    "DiffDiff.CSRows.C144_missing_outcomes",
    "DiffDiff.CSRows.C144_wide",
    "DiffDiff.CSRows.C144_duplicates",
    "DiffDiff.CSRows.C144_labels",
    "DiffDiff.CSRows.C144_row_order_refuted",
    "DiffDiff.CSRows.C144_never_refuted"
   ],
   "note": "The statement as written is proved; the refuted theorems concern what the statement excludes. False in general: a first_treat column that changes within a unit makes the order of the rows matter (C144_row_order_refuted), and a missing value in the first row of the never-treated units leads to a rejection (C144_never_refuted). The rest is proved; covariates and missing unit or period labels are not modelled."
  },
  {
   "property": "C145",
   "status": "partial",
   "theorems": [
    "DiffDiff.RowOrder.C145_regression",
    "DiffDiff.RowOrder.C145_did",
    "DiffDiff.RowOrder.C145_did_absorb",
    "DiffDiff.RowOrder.C145_twfe",
    "DiffDiff.RowOrder.C145_sun_abraham",
    "DiffDiff.RowOrder.C145_mixed_cohort_refuted",
    "DiffDiff.RowOrder.C145_solve_ols",
    "DiffDiff.RowOrder.C145_triple",
    "DiffDiff.TropBoot.C145_trop",
    "DiffDiff.TropBoot.C145_trop_bootstrap"
   ],
   "note": "Holds for regressions on both backends (rank deficiency included), DiD, absorbed DiD, TWFE, TripleDifference, TROP (both methods and their Python bootstrap), and for SunAbraham when every unit has one cohort; refuted for units recorded with two first treatment periods, whose first row decides. The column check is assumed to depend on the cross products only. CallawaySantAnna is in C144, MultiPeriodDiD in C148, BaconDecomposition in C149, SyntheticDiD in C119."
  },
  {
   "property": "C146",
   "status": "partial",
   "theorems": [
    "DiffDiff.TwfeFit.C146_counts",
    "DiffDiff.TwfeFit.C146_fixed_effects",
    "DiffDiff.TwfeFit.C146_errors",
    "DiffDiff.TwfeFit.C146_inference",
    "DiffDiff.TwfeFit.C146_absorbed_treatment",
    "DiffDiff.TwfeFit.C146_units",
    "DiffDiff.TwfeFit.C146_names",
    "DiffDiff.TwfeFit.C146_unidentified",
    "DiffDiff.TwfeFit.C146_panel_partial",
    "DiffDiff.TwfeFit.C146_did_refuted",
    "DiffDiff.TwfeFit.C146_control_noise_refuted",
    "DiffDiff.TwfeFit.C146_zero_se_refuted",
    "DiffDiff.TwfeFit.C146_no_controls_refuted",
    "DiffDiff.TwfeFit.C146_covariates",
    "DiffDiff.TwfeFit.C146_constant_covariate",
    "DiffDiff.TwfeFit.C146_row_order",
    "DiffDiff.TwfeFit.C146_controls"
   ],
   "note": "False: the interaction is not demeaned, so in the textbook panel the effect is n/(m+2n) times the difference in differences and the standard error depends on the control units only through their mean change; the exact formulas are proved, with the refutations. If the fixed effects absorb the treatment, zero is reported instead of an error. Counts, fixed effects, units, names, degrees of freedom, errors, covariates (also redundant ones) and row order are as claimed. Wild bootstrap is in WildBoot.lean."
  },
  {
   "property": "C147",
   "status": "partial",
   "theorems": [
    "DiffDiff.TropCv.C147_python_cells",
    "DiffDiff.TropCv.C147_rust_cells",
    "DiffDiff.TropCv.C147_no_sampling",
    "DiffDiff.TropCv.C147_seeded",
    "DiffDiff.TropCv.C147_few_cells",
    "DiffDiff.TropCv.C147_joint",
    "DiffDiff.TropCv.C147_unseeded_refuted",
    "DiffDiff.TropCv.C147_evaluations",
    "DiffDiff.TropCv.C147_no_controls"
   ],
   "note": "Without a seed (the default) and with more cells than max_loocv_samples the two-step method draws new cells for every candidate in Python (C147_unseeded_refuted). Proved: seeded fits, fits with few cells, the joint method, and the contents of the samples on both backends."
  },
  {
   "property": "C148",
   "status": "partial",
   "theorems": [
    "DiffDiff.MultiFit.C148_controls",
    "DiffDiff.MultiFit.C148_runs_full",
    "DiffDiff.MultiFit.C148_absorb",
    "DiffDiff.MultiFit.C148_counts",
    "DiffDiff.MultiFit.C148_estimable",
    "DiffDiff.MultiFit.C148_runs_iff",
    "DiffDiff.MultiFit.C148_effects",
    "DiffDiff.MultiFit.C148_recovers",
    "DiffDiff.MultiFit.C148_inference",
    "DiffDiff.MultiFit.C148_average",
    "DiffDiff.MultiFit.C148_reference",
    "DiffDiff.MultiFit.C148_two_periods",
    "DiffDiff.MultiFit.C148_row_order",
    "DiffDiff.MultiFit.C148_zero_se_refuted",
    "DiffDiff.MultiFit.C148_absorbed_refuted",
    "DiffDiff.MultiFit.C148_saturated_refuted",
    "DiffDiff.MultiFit.C148_same_controls",
    "DiffDiff.MultiFit.C148_row_order_rank",
    "DiffDiff.MultiFit.C148_reference_rank",
    "DiffDiff.MultiFit.C148_redundant_fixed",
    "DiffDiff.MultiFit.C148_controls_rank",
    "DiffDiff.MultiFit.C148_recovers_rank",
    "DiffDiff.MultiFit.C148_estimable_full"
   ],
   "note": "Least squares solver, column check, square root and distributions are parameters with hypotheses (shown satisfiable over the reals). The effects as gaps and agreement with the basic estimator are stated without covariates and dummies; controls, reference period, row order and recovery for all columns, redundant ones included (MultiFitRank.lean, if no effect is a combination of controls); condition for a result, average and inference for independent columns. Post periods must be distinct. Three expectations fail: zero standard errors are reported as certain by period and NaN on average, absorbed effects that use up the degrees of freedom give NaN where DifferenceInDifferences uses the normal distribution, and one row per cell with robust=False raises."
  },
  {
   "property": "C149",
   "status": "partial",
   "theorems": [
    "DiffDiff.BaconRows.C149_repeats",
    "DiffDiff.BaconRows.C149_row_order",
    "DiffDiff.BaconRows.C149_row_order_any",
    "DiffDiff.BaconRows.C149_wide",
    "DiffDiff.BaconRows.C149_wide_exists",
    "DiffDiff.BaconRows.C149_labels",
    "DiffDiff.BaconRows.C149_row_order_refuted",
    "DiffDiff.BaconRows.C149_duplicates_refuted"
   ],
   "note": "Order of rows, repetition, labels and the wide panel are proved. Refuted: a unit recorded with two first treatment periods makes the order matter (its first row decides whether there are never-treated comparisons), and repeated rows are not rejected but averaged. Missing unit or period labels and the warning about unbalanced panels are not modelled."
  },
  {
   "property": "C150",
   "status": "proved",
   "theorems": [
    "DiffDiff.DidFull.C150_controls",
    "DiffDiff.DidFull.C150_recovers",
    "DiffDiff.DidFull.C150_listing",
    "DiffDiff.DidFull.C150_levels",
    "DiffDiff.DidFull.C150_absorb_refuted",
    "DiffDiff.DidFull.C150_absorb_order_refuted",
    "DiffDiff.DidFull.C150_missing_label_refuted",
    "DiffDiff.DidFull.C150_adjusted",
    "DiffDiff.DidFull.C150_units",
    "DiffDiff.DidFull.C150_absorb",
    "DiffDiff.DidFull.C150_missing_level",
    "DiffDiff.DidFull.C150_plain",
    "DiffDiff.DidFull.C150_errors",
    "DiffDiff.DidFull.C150_runs",
    "DiffDiff.DidFull.C150_report",
    "DiffDiff.DidFull.C150_row_order",
    "DiffDiff.DidFull.C150_unidentified"
   ],
   "note": "Analytical inference; infinite values, names of coefficients and non-integer labels are not represented. The expectations that absorbing equals fixed effects, that the order of absorbed columns is irrelevant and that missing labels are rejected are refuted (C150_absorb_refuted, C150_absorb_order_refuted, C150_missing_label_refuted)."
  },
  {
   "property": "C151",
   "status": "proved",
   "theorems": [
    "DiffDiff.WildLin.C151_controls",
    "DiffDiff.WildLin.C151_units",
    "DiffDiff.WildLin.C151_row_order",
    "DiffDiff.WildLin.C151_names",
    "DiffDiff.WildLin.C151_estimate",
    "DiffDiff.WildLin.C151_no_cluster",
    "DiffDiff.WildLin.C151_range",
    "DiffDiff.WildLin.C151_no_effect_refuted",
    "DiffDiff.WildLin.C151_no_power_refuted",
    "DiffDiff.WildLin.C151_redundant_refuted",
    "DiffDiff.WildLin.C151_runs",
    "DiffDiff.WildLin.C151_report"
   ],
   "note": "The statement as written is proved; the refuted theorems concern what the statement excludes. When the bootstrap runs, the whole report, controls, units, row order, cluster names, agreement of the point estimate with the analytical call, bounds. Refuted: redundant columns, exact data without effect, power with one row per cluster. The draws are given (the generator is not modelled); the covariance matrix returned next to the bootstrap is not in the report."
  },
  {
   "property": "C152",
   "status": "proved",
   "theorems": [
    "DiffDiff.WildTwfe.C152_runs",
    "DiffDiff.WildTwfe.C152_report",
    "DiffDiff.WildTwfe.C152_report_unique",
    "DiffDiff.WildTwfe.C152_estimate",
    "DiffDiff.WildTwfe.C152_range",
    "DiffDiff.WildTwfe.C152_fixed_effects",
    "DiffDiff.WildTwfe.C152_controls",
    "DiffDiff.WildTwfe.C152_units",
    "DiffDiff.WildTwfe.C152_row_order",
    "DiffDiff.WildTwfe.C152_names",
    "DiffDiff.WildTwfe.C152_default_clusters",
    "DiffDiff.WildTwfe.C152_no_effect_refuted",
    "DiffDiff.WildTwfe.C152_redundant_refuted"
   ],
   "note": "The statement as written is proved; the refuted theorems concern what the statement excludes. When the call runs, the whole report with uniqueness of its parts, agreement of the point estimate with the analytical call, fixed effects, controls, units, row order, cluster names, default clusters, bounds. Refuted: exact data without effect, covariates constant within unit or period. The draws are given (the generator is not modelled); missing values and the covariance matrix next to the bootstrap are not in the report."
  },
  {
   "property": "C153",
   "status": "partial",
   "theorems": [
    "DiffDiff.DidFull.C153_did",
    "DiffDiff.TwfeFit.C153_twfe",
    "DiffDiff.WildLin.C153_wild",
    "DiffDiff.WildLin.C153_did_wild",
    "DiffDiff.WildTwfe.C153_twfe_wild",
    "DiffDiff.LinReg.C153_regression",
    "DiffDiff.SdidFit.C153_sdid",
    "DiffDiff.SdidFit.C153_sdid_numpy",
    "DiffDiff.SdidFit.C153_sdid_compiled_refuted",
    "DiffDiff.TripleFit.C153_triple",
    "DiffDiff.MultiFit.C153_multi",
    "DiffDiff.TropJoint.C153_trop_joint",
    "DiffDiff.TropJoint.C153_trop_joint_jackknife",
    "DiffDiff.TropFit.C153_trop_cell",
    "DiffDiff.TropFit.C153_trop",
    "DiffDiff.TropFit.C153_trop_score",
    "DiffDiff.TropFit.C153_trop_jackknife",
    "DiffDiff.TropFit.C153_trop_bootstrap",
    "DiffDiff.TropFit.C153_trop_refuted"
   ],
   "note": "Proved for LinearRegression, DifferenceInDifferences and TwoWayFixedEffects (analytical and wild bootstrap inference, same random weights), TripleDifference, MultiPeriodDiD, SyntheticDiD (given weight routines that agree; the NumPy routines agree when ridge parameter and guards are rescaled), TROP method \"twostep\" (given tuning parameters, tolerance and distances rescaled) and TROP method \"joint\" (including the search, with rescaled grids that do not cross 1e10 and at least one finite score). Refuted for the compiled SyntheticDiD weights (fixed step 0.1) and for TROP with fixed tuning parameters. The search of the \"twostep\" tuning parameters stops on a fixed 1e-6 and is not covered."
  },
  {
   "property": "C154",
   "status": "partial",
   "theorems": [
    "DiffDiff.HonestDid.C154_units_rm",
    "DiffDiff.HonestDid.C154_units_smooth",
    "DiffDiff.HonestDid.C154_sign",
    "DiffDiff.HonestDid.C154_breakdown_units",
    "DiffDiff.HonestDid.C154_breakdown_sign",
    "DiffDiff.HonestDid.C154_event_order",
    "DiffDiff.HonestDid.C154_units_combined",
    "DiffDiff.HonestDid.C154_combined_refuted",
    "DiffDiff.HonestDid.C154_smooth_breakdown_refuted"
   ],
   "note": "Units, sign and order are proved for fits, sensitivity tables and breakdown values under relative magnitudes; smoothness with M in the new units; combined with default weights. False of the smoothness breakdown search (limit 10) and of the combined method with other weights: C154_smooth_breakdown_refuted, C154_combined_refuted."
  },
  {
   "property": "C155",
   "status": "partial",
   "theorems": [
    "DiffDiff.DidFull.C155_groups",
    "DiffDiff.DidFull.C155_periods",
    "DiffDiff.DidFull.C155_both",
    "DiffDiff.DidFull.C155_roles",
    "DiffDiff.DidFull.C155_sign",
    "DiffDiff.LinReg.C155_regression",
    "DiffDiff.LinReg.C155_regression_runs",
    "DiffDiff.LinReg.C155_pair",
    "DiffDiff.MultiFit.C155_multi",
    "DiffDiff.TripleFit.C155_triple_reg_covariates",
    "DiffDiff.TwfeFit.C155_twfe_refuted",
    "DiffDiff.TripleFit.C155_triple_reg",
    "DiffDiff.TripleFit.C155_triple_dr_periods",
    "DiffDiff.TripleFit.C155_triple_dr",
    "DiffDiff.TripleFit.C155_triple_ipw_partial",
    "DiffDiff.TripleFit.C155_triple_dr_refuted",
    "DiffDiff.TripleFit.C155_triple_ipw_refuted",
    "DiffDiff.WildLin.C155_wild_groups",
    "DiffDiff.WildLin.C155_wild_periods",
    "DiffDiff.WildLin.C155_wild_roles",
    "DiffDiff.WildLin.C155_wild_sign"
   ],
   "note": "DifferenceInDifferences: proved for all identified designs (C155_groups, C155_periods, C155_both, C155_roles, C155_sign) with covariates, fixed and absorbed effects. TripleDifference, regression method: proved for any cell sizes and combination of columns, without covariates (C155_triple_reg) and with any covariates that leave the effect identified (C155_triple_reg_covariates). Default method: proved without covariates when no share is trimmed (C155_triple_dr, C155_triple_dr_periods), refuted with a trimmed share (C155_triple_dr_refuted). Inverse weighting: the estimate turns round (C155_triple_ipw_partial), its standard error does not stay (C155_triple_ipw_refuted). TwoWayFixedEffects: refuted for every two-period panel with unequal arms and a nonzero effect (C155_twfe_refuted). MultiPeriodDiD: proved (C155_multi). Wild bootstrap: proved for every identified design (C155_wild_groups, C155_wild_periods, C155_wild_roles, C155_wild_sign). C155_pair, C155_regression and C155_regression_runs state the symmetry for any regression. Left out: covariates in the default and weighting methods."
  },
  {
   "property": "C156",
   "status": "proved",
   "theorems": [
    "DiffDiff.SdidFit.C156_sdid",
    "DiffDiff.SdidFit.C156_sdid_weights",
    "DiffDiff.SdidFit.C156_sdid_code",
    "DiffDiff.SoftSvd.C156_trop_code",
    "DiffDiff.TropFit.C156_trop_cell",
    "DiffDiff.TropFit.C156_trop_att",
    "DiffDiff.TropFit.C156_trop_score",
    "DiffDiff.TropFit.C156_trop_jackknife",
    "DiffDiff.TropFit.C156_trop_bootstrap",
    "DiffDiff.TropFit.C156_trop",
    "DiffDiff.TropFit.C156_trop_tune"
   ],
   "note": "TropJoint and the estimators by regression are covered elsewhere or not at all: C140 (CallawaySantAnna, SunAbraham, Bacon), C155 (regressions, through exchanged labels). The two-sided p-value of the normal distribution is a parameter with pval(-t) = pval(t). OddSvd is proved of the code's routine in C157_code_odd."
  },
  {
   "property": "C157",
   "status": "partial",
   "theorems": [
    "DiffDiff.SoftSvd.C157_unique",
    "DiffDiff.SoftSvd.C157_backends",
    "DiffDiff.SoftSvd.C157_orthogonal",
    "DiffDiff.SoftSvd.C157_transpose",
    "DiffDiff.SoftSvd.C157_reorder",
    "DiffDiff.SoftSvd.C157_odd",
    "DiffDiff.SoftSvd.C157_units",
    "DiffDiff.SoftSvd.C157_nuclear_norm",
    "DiffDiff.SoftSvd.C157_proximal",
    "DiffDiff.SoftSvd.C157_cutoff",
    "DiffDiff.SoftSvd.C157_finite",
    "DiffDiff.SoftSvd.C157_backends_nonfinite_refuted",
    "DiffDiff.SoftSvd.C157_library",
    "DiffDiff.SoftSvd.C157_code_odd",
    "DiffDiff.SoftSvd.C157_code_columns",
    "DiffDiff.SoftSvd.C157_code_sym",
    "DiffDiff.SoftSvd.C157_code_units",
    "DiffDiff.SoftSvd.C157_code_shrink",
    "DiffDiff.SoftSvd.C157_code_zero",
    "DiffDiff.SoftSvd.C157_code_off",
    "DiffDiff.SoftSvd.C157_unit_order"
   ],
   "note": "Refuted for entries that are not finite: Python replaces the entry by 0, the compiled routine returns the zero matrix (C157_backends_nonfinite_refuted; such entries arise only by overflow). The decomposition is a parameter given by its equations; it exists over the reals (C157_library). Change of units holds with the cut-off in the same units."
  },
  {
   "property": "C158",
   "status": "partial",
   "theorems": [
    "DiffDiff.TropDescent.C158_sweep",
    "DiffDiff.TropDescent.C158_loop",
    "DiffDiff.TropDescent.C158_rust_sweep",
    "DiffDiff.TropDescent.C158_fixed_point",
    "DiffDiff.TropDescent.C158_rust_fixed_point",
    "DiffDiff.TropDescent.C158_estimate",
    "DiffDiff.TropDescent.C158_documented_objective_refuted",
    "DiffDiff.TropDescent.C158_backends_refuted",
    "DiffDiff.TropJointDescent.C158_joint_step",
    "DiffDiff.TropJointDescent.C158_joint",
    "DiffDiff.TropJointDescent.C158_joint_settles",
    "DiffDiff.TropJointDescent.C158_joint_fixed_point"
   ],
   "note": "Proved for the objective the code works on, Python: half the weighted squares with weights W / max W plus lambda times the nuclear norm; compiled and joint method: the same with weights W. The last sentence is false of the code: C158_documented_objective_refuted (the documented objective has no half and no division by max W) and C158_backends_refuted (the two backends solve different problems when max W differs from 1). The joint method of the compiled code is not covered."
  },
  {
   "property": "C159",
   "status": "proved",
   "theorems": [
    "DiffDiff.HonestDid.C159_table",
    "DiffDiff.HonestDid.C159_error",
    "DiffDiff.HonestDid.C159_default_grid",
    "DiffDiff.HonestDid.C159_breakdown",
    "DiffDiff.HonestDid.C159_uniform",
    "DiffDiff.HonestDid.C159_estimate",
    "DiffDiff.HonestDid.C159_rm_rows",
    "DiffDiff.HonestDid.C159_two_searches"
   ],
   "note": "On the models HonestDid and HonestSens; the linear programming routine and the square root are parameters. A negative M in the grid is accepted (see C77_negative_M_refuted)."
  },
  {
   "property": "C160",
   "status": "proved",
   "theorems": [
    "DiffDiff.SynthWeights.C160_accuracy",
    "DiffDiff.SynthWeights.C160_weights",
    "DiffDiff.SynthWeights.C160_settles"
   ],
   "note": "exact arithmetic; the step size is any one meeting the curvature condition that 1/(norm(H,2)+eps) guarantees; the compiled backend has no such bound (C62_rust_worse_every_budget)"
  }
 ]
}
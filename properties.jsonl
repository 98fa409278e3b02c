{"id": "C01", "title": "Simplex projection returns a probability vector", "statement": "For every non-empty real vector v, the projection used for synthetic-control weights returns a vector of the same length whose entries are all >= 0 and sum to exactly 1 (exact arithmetic), in the Python and in the Rust backend; the empty vector is returned unchanged.", "quantifier": "all real vectors of every length", "why_tests_cant": "The input space is R^n for every n; tests sample a handful of vectors and sizes, and the threshold index depends on the sort order of all entries.", "anchors": ["diff_diff/utils.py:_project_simplex (1112-1147)", "rust/src/weights.rs:project_simplex_internal (139-162)"]}
{"id": "C02", "title": "Simplex projection is the Euclidean nearest point", "statement": "For every non-empty vector v and every probability vector q, ||project(v)-v|| <= ||q-v||; the minimiser is unique, so projecting an already valid probability vector returns it unchanged (idempotence), adding a constant to all entries of v does not change the result, and permuting v permutes the result.", "quantifier": "all vectors v and all competitors q in the simplex, every dimension", "why_tests_cant": "Optimality quantifies over an uncountable set of competitors.", "anchors": ["diff_diff/utils.py:_project_simplex", "rust/src/weights.rs:project_simplex_internal"]}
{"id": "C03", "title": "Python and Rust simplex projections agree", "statement": "The Rust running-sum loop and the numpy cumsum/where implementation of the simplex projection return the same vector for every input.", "quantifier": "all vectors", "why_tests_cant": "Differential testing compares finitely many vectors; equality for all inputs is a program equivalence.", "anchors": ["diff_diff/utils.py:_project_simplex", "rust/src/weights.rs:project_simplex_internal"]}
{"id": "C04", "title": "Synthetic unit weights are a probability vector for every stopping point", "statement": "compute_synthetic_weights returns non-negative weights that sum to 1 for every control matrix, treated vector, regularisation value, min_weight below 1/n_control, tolerance and iteration budget, i.e. wherever the projected gradient loop happens to stop; zero controls give the empty vector and a single control gives [1].", "quantifier": "all inputs and all stopping points of the optimisation loop", "why_tests_cant": "The loop can stop at any of 1000 iterations depending on data; only an invariant over iterations covers all of them.", "anchors": ["diff_diff/utils.py:compute_synthetic_weights (997-1066)", "diff_diff/utils.py:_compute_synthetic_weights_numpy (1069-1109)", "rust/src/weights.rs:compute_synthetic_weights_internal (54-110)"]}
{"id": "C05", "title": "Time weights are a probability vector", "statement": "compute_time_weights returns non-negative weights over pre-periods that sum to 1 for every input with at least one pre-period and zeta >= 0; a pre-period where the treated mean is closer to the control mean never gets less weight; increasing zeta makes the weights more equal.", "quantifier": "all inputs, all pairs of periods, all pairs of zeta values", "why_tests_cant": "Monotonicity in zeta and in the gaps ranges over pairs of real inputs.", "anchors": ["diff_diff/utils.py:compute_time_weights (1150-1200)"]}
{"id": "C06", "title": "SDID estimate recovers a constant effect in an additive model", "statement": "If outcomes are unit effect + time effect (+ tau for treated units in post periods), then for any unit weights and time weights that each sum to one the SDID estimate equals tau exactly; more generally the estimate is unchanged by adding a unit effect common to pre and post or a time effect common to all units, and it is affine in treated post outcomes.", "quantifier": "all additive panels, all normalised weights, all panel sizes", "why_tests_cant": "Universally quantified over panels and weights.", "anchors": ["diff_diff/utils.py:compute_sdid_estimator (1203-1263)"]}
{"id": "C07", "title": "Group demeaning removes exactly the group means", "statement": "After demean_by_group, each group's values sum to zero for every (also unbalanced) grouping, values that are constant within groups become zero, demeaning twice equals demeaning once, and the reported number of absorbed effects is the number of distinct groups minus one.", "quantifier": "all data columns and all groupings", "why_tests_cant": "All groupings of all sizes; tests use a few balanced examples.", "anchors": ["diff_diff/utils.py:demean_by_group (1350-1403)"]}
{"id": "C08", "title": "Two-way within transform absorbs unit and time effects", "statement": "within_transform removes any additive unit effect plus time effect from the data (result depends only on the residual variation), is idempotent, and leaves each unit's and each period's values summing to zero.", "quantifier": "all panels (balanced and unbalanced), all fixed-effect values", "why_tests_cant": "Quantifies over all panels and all real fixed effects; claimed for unbalanced panels as well.", "anchors": ["diff_diff/utils.py:within_transform (1406-1484)", "docs/methodology/REGISTRY.md:TwoWayFixedEffects"]}
{"id": "C09", "title": "TwoWayFixedEffects returns the two-way fixed effects coefficient", "statement": "On every balanced panel, the ATT returned by TwoWayFixedEffects.fit without covariates equals the coefficient on the treatment indicator in the regression with unit and time fixed effects; in particular it equals tau when outcomes are unit effect + time effect + tau*D.", "quantifier": "all balanced panels and treatment assignments", "why_tests_cant": "Must hold for every panel size, share of treated units and share of post periods; the error factor depends on them.", "anchors": ["diff_diff/twfe.py:TwoWayFixedEffects.fit (57-246)"]}
{"id": "C10", "title": "Basic DiD coefficient equals the difference of cell-mean differences", "statement": "For every data set in which all four treatment x time cells are non-empty, any least-squares solution of the DifferenceInDifferences regression without covariates has interaction coefficient equal to (mean treated post - mean treated pre) - (mean control post - mean control pre).", "quantifier": "all data sets with four non-empty cells", "why_tests_cant": "All sample sizes and outcomes.", "anchors": ["diff_diff/estimators.py:DifferenceInDifferences.fit (146-359)"]}
{"id": "C11", "title": "Least squares residuals are orthogonal and fitted values optimal", "statement": "Whenever the coefficient vector solves the normal equations (what the solvers are specified to return), residuals are orthogonal to every retained column, fitted values do not depend on which solution was chosen, and the residual sum of squares is minimal over all coefficient vectors.", "quantifier": "all designs and responses", "why_tests_cant": "Minimality over all coefficient vectors.", "anchors": ["diff_diff/linalg.py:solve_ols (338-580)", "diff_diff/linalg.py:_solve_ols_numpy (583-715)"]}
{"id": "C12", "title": "NaN is reported for exactly the dropped columns", "statement": "When columns are dropped for rank deficiency the returned coefficient vector has full length, is NaN at exactly the dropped positions, equals the reduced solution elsewhere in order, and the covariance matrix is NaN exactly in rows/columns of dropped coefficients; predictions ignore dropped columns; the dropped set and kept set partition the columns.", "quantifier": "all column counts, all dropped sets, all pivot orders", "why_tests_cant": "Every subset of columns can be dropped.", "anchors": ["diff_diff/linalg.py:_expand_coefficients_with_nan (191-215)", "diff_diff/linalg.py:_expand_vcov_with_nan (218-244)", "diff_diff/linalg.py:_detect_rank_deficiency (85-146)"]}
{"id": "C13", "title": "solve_ols validates before computing and honours rank_deficient_action", "statement": "For every input: a shape, row-count, underdetermined, action-name or non-finite problem raises before any numerical routine runs, with the first applicable check deciding; action 'error' never returns a result for a design detected as rank deficient; the Rust backend is only consulted for designs that pass the rank check or when the check is explicitly skipped, and any Rust failure falls back to the numpy path.", "quantifier": "all inputs, all backend availabilities and failure modes of the Rust call", "why_tests_cant": "Space of error combinations x backend outcomes is not enumerable by tests.", "anchors": ["diff_diff/linalg.py:solve_ols (338-580)", "diff_diff/linalg.py:_solve_ols_rust (247-335)"]}
{"id": "C14", "title": "Robust covariance is symmetric PSD and independent of cluster labels and row order", "statement": "HC1 and cluster-robust covariance matrices are symmetric and positive semi-definite whenever n > k, are unchanged by any injective relabelling of cluster ids and by reordering observations; with every observation its own cluster the clustered matrix equals HC1 (up to exact small-sample factors G/(G-1)*(n-1)/(n-k) = n/(n-k)); fewer than two clusters is an error; Rust hash-map order does not matter.", "quantifier": "all designs, residuals, cluster assignments, relabellings, permutations", "why_tests_cant": "Invariance over all relabellings/permutations.", "anchors": ["diff_diff/linalg.py:_compute_robust_vcov_numpy (790-871)", "rust/src/linalg.rs:compute_robust_vcov_internal (193-277)"]}
{"id": "C15", "title": "R-squared bounds", "statement": "compute_r_squared never exceeds 1, is 0 for a constant outcome, is within [0,1] when residuals come from a least-squares fit with intercept, and the adjusted value never exceeds the unadjusted one and falls back to it when n <= number of parameters.", "quantifier": "all outcomes and residuals", "why_tests_cant": "All real data.", "anchors": ["diff_diff/linalg.py:compute_r_squared (874-912)"]}
{"id": "C16", "title": "Inference fields are mutually consistent", "statement": "For a positive standard error the reported confidence interval is centred at the coefficient, contains it, the t statistic has the coefficient's sign, and (given any symmetric continuous reference distribution) the interval excludes zero exactly when the two-sided p-value is below alpha, i.e. is_significant agrees with the interval.", "quantifier": "all coefficients, standard errors, alphas, degrees of freedom", "why_tests_cant": "Continuum of inputs; duality between tests and intervals.", "anchors": ["diff_diff/linalg.py:LinearRegression.get_inference", "diff_diff/utils.py:compute_confidence_interval (81-114)", "diff_diff/utils.py:compute_p_value (117-143)"]}
{"id": "C17", "title": "Degenerate standard errors never look significant", "statement": "When the standard error is zero, negative or undefined, no estimator reports a finite test statistic / p-value that suggests a valid test: inference fields are NaN.", "quantifier": "all estimators, all degenerate standard errors", "why_tests_cant": "Edge cases across estimators and all estimate values.", "anchors": ["diff_diff/staggered.py:fit", "diff_diff/trop.py:fit (2188-2197)", "diff_diff/sun_abraham.py:fit (603)", "diff_diff/triple_diff.py:fit (601)", "diff_diff/linalg.py:LinearRegression.get_inference"]}
{"id": "C18", "title": "set_params / get_params round trip", "statement": "After set_params(k=v) succeeds for documented parameters, get_params reports v for k and leaves every other parameter unchanged; set_params(**get_params()) is a no-op; for every sequence of set_params calls the last value written to each parameter wins.", "quantifier": "all sequences of parameter updates", "why_tests_cant": "All call histories.", "anchors": ["diff_diff/estimators.py:set_params (610-628)", "diff_diff/staggered.py:set_params (1099-1106)", "diff_diff/trop.py:set_params (3096)", "diff_diff/honest_did.py:set_params (1036)", "diff_diff/pretrends.py:set_params (473)", "diff_diff/bacon.py:set_params (873)"]}
{"id": "C19", "title": "A rejected set_params leaves the estimator unchanged", "statement": "If set_params raises, no parameter has changed, and an estimator whose constructor validates an option can never hold an invalid value for that option.", "quantifier": "all argument orders and histories of calls", "why_tests_cant": "Requires reasoning about every prefix of every update and every reachable state.", "anchors": ["diff_diff/honest_did.py:set_params (1036-1044)", "diff_diff/bacon.py:set_params (873-882)", "diff_diff/synthetic_did.py:set_params", "diff_diff/staggered.py:set_params (1099-1106)", "diff_diff/trop.py:set_params (3096-3103)"]}
{"id": "C20", "title": "Refitting reports the inference method of the current fit", "statement": "For every history of set_params and fit calls on a DifferenceInDifferences object, the results of a fit depend only on the parameters at the time of that fit and the data passed, and results.inference_method names the method used by that fit.", "quantifier": "all call histories", "why_tests_cant": "Stateful: needs induction over histories.", "anchors": ["diff_diff/estimators.py:DifferenceInDifferences.fit (146-359)", "diff_diff/estimators.py:_run_wild_bootstrap_inference"]}
{"id": "C21", "title": "Formula parsing", "statement": "For every formula of the documented forms 'y ~ a * b', 'y ~ a + b + a:b' (optionally followed by covariate terms), the parsed outcome, treatment, time and covariates are exactly the named variables, and formulas outside those forms are rejected rather than misread.", "quantifier": "all variable names and covariate lists", "why_tests_cant": "All strings.", "anchors": ["diff_diff/estimators.py:_parse_formula (440-531)"]}
{"id": "C22", "title": "Callaway-Sant'Anna base period selection", "statement": "For every cohort g, period t and anticipation a: the base period is strictly before g - a (so never a treated or anticipation period); 'varying' and 'universal' use the same base for all t >= g - a, hence give identical post-treatment ATT(g,t); for pre-treatment t 'varying' uses the immediately preceding period; if base or t is not observed no effect is reported.", "quantifier": "all g, t, anticipation values, panels", "why_tests_cant": "All integers and panels.", "anchors": ["diff_diff/staggered.py:_compute_att_gt_fast (442-570)"]}
{"id": "C23", "title": "Callaway-Sant'Anna control group contains no treated or own-cohort units", "statement": "For every cohort g and period t, control units are disjoint from cohort g, always include all never-treated units observed at both dates, and never contain a unit that is already treated (or, with anticipation, already affected) at t or at the base period.", "quantifier": "all cohort assignments, g, t, anticipation, base-period choices", "why_tests_cant": "All staggered designs.", "anchors": ["diff_diff/staggered.py:_compute_att_gt_fast (442-570)"]}
{"id": "C24", "title": "ATT(g,t) without covariates identifies the effect under parallel trends", "statement": "If each unit's untreated outcome is unit effect + period effect and treated units receive arbitrary effects, ATT(g,t) reported with never-treated controls equals the average effect of observed cohort-g units at t minus that at the base period (zero before treatment); it is invariant to adding any unit and period effects.", "quantifier": "all panels satisfying parallel trends with heterogeneous effects", "why_tests_cant": "All effects and panels.", "anchors": ["diff_diff/staggered.py:_outcome_regression (829-894)", "diff_diff/staggered.py:_compute_att_gt_fast"]}
{"id": "C25", "title": "Aggregations are convex combinations of the right ATT(g,t)", "statement": "The overall, event-study and group aggregates are weighted averages with non-negative weights summing to one of, respectively, exactly the effects with t >= g - anticipation, exactly those with t - g = e (subject to the balance filter), and exactly those of cohort g with t >= g - anticipation; hence they lie between the min and max of those effects and equal the common value when effects are constant; with no eligible effects the overall ATT is NaN.", "quantifier": "all sets of group-time effects and cohort sizes", "why_tests_cant": "All finite families.", "anchors": ["diff_diff/staggered_aggregation.py:_aggregate_simple (40-106)", "diff_diff/staggered_aggregation.py:_aggregate_event_study (338-436)", "diff_diff/staggered_aggregation.py:_aggregate_by_group (438-492)"]}
{"id": "C26", "title": "Influence functions are centred and the multiplier bootstrap is a perturbation of the estimate", "statement": "The unit-level influence function values of every ATT(g,t) without covariates sum to zero, so multiplying all weights by a constant leaves the bootstrap draw equal to the estimate; the analytic variance equals the sum of squared influence values scaled as documented; every bootstrap draw is the estimate plus a linear function of the weights.", "quantifier": "all samples and all weight draws", "why_tests_cant": "All real data and weight vectors.", "anchors": ["diff_diff/staggered.py:_outcome_regression (829-894)", "diff_diff/staggered_bootstrap.py:_run_multiplier_bootstrap (255-533)"]}
{"id": "C27", "title": "Bootstrap p-values and percentile intervals are well formed", "statement": "Bootstrap p-values lie in [1/(n_valid+1), 1]; percentile intervals are ordered; p-values are symmetric under flipping the sign of estimate and draws; when fewer than half of the draws are finite all bootstrap statistics are NaN; non-finite draws never influence the remaining ones.", "quantifier": "all draw vectors including NaN/inf entries", "why_tests_cant": "All finite sequences over extended reals.", "anchors": ["diff_diff/staggered_bootstrap.py:_compute_bootstrap_pvalue (640-683)", "diff_diff/staggered_bootstrap.py:_compute_percentile_ci (630-638)", "diff_diff/staggered_bootstrap.py:_compute_effect_bootstrap_stats (685-753)"]}
{"id": "C28", "title": "Bootstrap multiplier distributions have mean 0 and variance 1", "statement": "The value/probability tables used for Rademacher, Mammen and Webb weights have expectation 0 and variance 1, Mammen has third moment 1, Rademacher third moment 0; the Python and Rust tables are the same distribution.", "quantifier": "the whole distribution (exact moments)", "why_tests_cant": "Monte Carlo tests only approximate moments.", "anchors": ["diff_diff/staggered_bootstrap.py:_generate_bootstrap_weights (26-168)", "diff_diff/utils.py:_generate_*_weights (217-309)", "rust/src/bootstrap.rs (57-151)"]}
{"id": "C29", "title": "Rust bootstrap weights do not depend on the thread schedule", "statement": "For every seed, shape and every order/interleaving in which rows are filled by worker threads, the resulting weight matrix is the same; row i depends only on seed+i (hence consecutive seeds share all but one row).", "quantifier": "all schedules (permutations of row-fill tasks), all seeds, all shapes", "why_tests_cant": "Schedules cannot be enumerated by tests.", "anchors": ["rust/src/bootstrap.rs:generate_rademacher_batch (57-75)"]}
{"id": "C30", "title": "Never-treated units may be coded 0 or infinity interchangeably", "statement": "For every panel, recoding never-treated units from 0 to infinity changes none of the reported effects, groups or unit counts of CallawaySantAnna, SunAbraham and BaconDecomposition.", "quantifier": "all panels and both codings", "why_tests_cant": "Relational property over all panels.", "anchors": ["diff_diff/staggered.py:fit (572-827)", "diff_diff/sun_abraham.py:fit (429-678)", "diff_diff/bacon.py:fit (402-567)"]}
{"id": "C31", "title": "Bacon weights are non-negative, sum to one and split by type", "statement": "For every panel with at least one valid comparison of positive weight, decomposition weights are non-negative and sum to 1, the three per-type totals add up to 1, and each type average is the weighted average of its comparisons.", "quantifier": "all staggered panels", "why_tests_cant": "All group sizes and timings.", "anchors": ["diff_diff/bacon.py:fit (402-567)"]}
{"id": "C32", "title": "Bacon decomposition reproduces the TWFE coefficient", "statement": "For every balanced panel with binary absorbing treatment, the weighted sum of the reported 2x2 estimates equals the TWFE coefficient (decomposition error zero) with weights='exact'.", "quantifier": "all balanced staggered panels", "why_tests_cant": "Algebraic identity over all panels.", "anchors": ["diff_diff/bacon.py:_recompute_exact_weights (596-692)", "diff_diff/bacon.py:_compute_twfe (569-594)", "diff_diff/bacon.py:_compute_timing_comparison (768-867)"]}
{"id": "C33", "title": "Timing comparisons use only the intended windows", "statement": "An earlier-vs-later comparison only uses periods before the later group is treated; a later-vs-earlier comparison only uses periods at or after the earlier group's start; both are absent when the window lacks pre or post periods; estimates are invariant to unit and time effects.", "quantifier": "all timings and outcomes", "why_tests_cant": "All integer timings.", "anchors": ["diff_diff/bacon.py:_compute_timing_comparison (768-867)"]}
{"id": "C34", "title": "Sun-Abraham interaction weights are convex per event time", "statement": "For each event time the interaction weights over cohorts are non-negative and sum to one, so the IW effect lies between the smallest and largest cohort effect at that event time; the reference period e=-1-anticipation never enters the regression.", "quantifier": "all cohort sizes and effect tables", "why_tests_cant": "All finite tables.", "anchors": ["diff_diff/sun_abraham.py:_compute_iw_effects (807-894)", "diff_diff/sun_abraham.py:fit (529-560)"]}
{"id": "C35", "title": "Sun-Abraham bootstrap resamples whole units", "statement": "Every pairs-bootstrap replicate consists of exactly the rows of the sampled units, for every row index of the input frame.", "quantifier": "all data frames incl. non-default indices, all draws", "why_tests_cant": "All permutations/labels of the index.", "anchors": ["diff_diff/sun_abraham.py:_run_bootstrap (966-1133)"]}
{"id": "C36", "title": "Triple difference without covariates equals the difference of DiDs for all methods", "statement": "For every data set with eight non-empty cells, regression adjustment and IPW without covariates both return [(Y11 - Y10) - (Y01 - Y00) in eligible] - [same in ineligible], are invariant to shifting outcomes by a constant, and doubly robust agrees with them.", "quantifier": "all data sets with 8 non-empty cells", "why_tests_cant": "All sample sizes/outcomes.", "anchors": ["diff_diff/triple_diff.py:_regression_adjustment (719-775)", "diff_diff/triple_diff.py:_ipw_estimation (777-920)", "diff_diff/triple_diff.py:_doubly_robust (922-1104)"]}
{"id": "C37", "title": "Triple difference doubly robust estimator uses the outcome model", "statement": "The doubly robust estimate is consistent if either the propensity or the outcome model is right; in particular with a correct outcome model it does not depend on the propensity scores.", "quantifier": "all fitted outcome models and propensity scores", "why_tests_cant": "Universally quantified over nuisance functions.", "anchors": ["diff_diff/triple_diff.py:_doubly_robust (922-1104)"]}
{"id": "C38", "title": "Triple difference input validation is exact", "statement": "fit accepts a data set exactly when all columns exist, no required value is missing, the three indicators are binary with both values present, and all eight cells are non-empty; otherwise it raises.", "quantifier": "all data frames", "why_tests_cant": "All inputs.", "anchors": ["diff_diff/triple_diff.py:_validate_data (639-700)"]}
{"id": "C39", "title": "Relative-magnitude bounds of HonestDiD", "statement": "For every estimate, standard error, M >= 0: the robust interval contains the identified set which contains the estimate, both are monotone in M, M=0 gives the estimate and its usual interval; the identified set equals the exact range of l'(beta - delta) over |delta_post| <= M * max pre violation for every weight vector l.", "quantifier": "all estimates, M, l vectors, violations delta", "why_tests_cant": "Ranges over all violations.", "anchors": ["diff_diff/honest_did.py:_compute_rm_bounds (1168-1196)", "diff_diff/honest_did.py:_compute_clf_ci (884-943)"]}
{"id": "C40", "title": "Smoothness bounds of HonestDiD are informative", "statement": "For smoothness restriction M the identified set is the range of l'(beta_post - delta_post) over violations delta with second differences bounded by M and pre-period values pinned by the pre-period estimates; it is finite for every M and equals the linear extrapolation at M = 0.", "quantifier": "all event studies, M, l vectors", "why_tests_cant": "Ranges over all violations; LP for every size.", "anchors": ["diff_diff/honest_did.py:_solve_bounds_lp (740-835)", "diff_diff/honest_did.py:_construct_constraints_sd (654-691)", "diff_diff/honest_did.py:_construct_A_sd (622-651)"]}
{"id": "C41", "title": "Breakdown value is located to tolerance", "statement": "If significance at M is monotone and the true breakdown point lies in (0, 10], breakdown_value returns a value within tol of it; it returns 0 when already insignificant at M=0; the sensitivity-grid bisection returns a point inside the bracketing grid interval with error at most width/2^20.", "quantifier": "all monotone significance profiles, all tolerances", "why_tests_cant": "All real thresholds.", "anchors": ["diff_diff/honest_did.py:breakdown_value (1381-1425)", "diff_diff/honest_did.py:_find_breakdown (1338-1379)"]}
{"id": "C42", "title": "HonestDiD uses the covariance of the coefficients it analyses", "statement": "For MultiPeriodDiD results the covariance block used for the post-period inference is the covariance of the post-period interaction coefficients, and pre-period magnitudes are taken from pre-period coefficients.", "quantifier": "all MultiPeriodDiD results", "why_tests_cant": "Positions depend on the numbers of periods and covariates.", "anchors": ["diff_diff/honest_did.py:_extract_event_study_params (517-619)", "diff_diff/honest_did.py:fit (1046-1144)"]}
{"id": "C43", "title": "Pre-trends violation weights are unit vectors and MDV is consistent", "statement": "For every violation type and number of pre-periods the weight vector has unit length, the minimum detectable violation has exactly the target power, and power_at on the results agrees with power from a fit at the same violation.", "quantifier": "all n_pre, covariance matrices, targets", "why_tests_cant": "All positive-definite covariances.", "anchors": ["diff_diff/pretrends.py:_get_violation_weights (484-526)", "diff_diff/pretrends.py:_compute_mdv (775-848)", "diff_diff/pretrends.py:power_at (205-260)"]}
{"id": "C44", "title": "Power analysis is self consistent", "statement": "Power at the MDE equals the target, power is monotone in effect and sample size, two-sided power at zero effect equals alpha, and the sample size returned by sample_size has MDE at most the requested effect (target power reached) and is not more than needed up to rounding.", "quantifier": "all designs, sigmas, rhos, allocations, alternatives", "why_tests_cant": "Continuum of designs.", "anchors": ["diff_diff/power.py:PowerAnalysis (397-767)"]}
{"id": "C45", "title": "Permutation test p-values", "statement": "The permutation p-value lies in [1/(n+1),1] and is a valid p-value: under exchangeability the probability of p <= a is at most a.", "quantifier": "all draw vectors / all exchangeable distributions", "why_tests_cant": "Validity is a statement about all distributions.", "anchors": ["diff_diff/diagnostics.py:permutation_test (533-681)"]}
{"id": "C46", "title": "Placebo timing test only uses pre-treatment data", "statement": "The placebo timing test result is unchanged by arbitrary changes to post-treatment outcomes, and a fake period inside the post window is rejected.", "quantifier": "all post-period outcome changes", "why_tests_cant": "Relational property.", "anchors": ["diff_diff/diagnostics.py:placebo_timing_test (355-451)"]}
{"id": "C47", "title": "balance_panel('inner') keeps exactly the complete units", "statement": "The result contains exactly the rows of units observed in every period of the input, in original order, is balanced, and applying it again changes nothing.", "quantifier": "all panels", "why_tests_cant": "All panels.", "anchors": ["diff_diff/prep.py:balance_panel (290-389)"]}
{"id": "C48", "title": "balance_panel('outer'/'fill') covers the full grid without inventing or losing data", "statement": "Every unit-period pair appears; every original row survives unchanged; with 'fill' only missing cells change, values never cross units, a filled value is the nearest earlier (else later) value of the same unit, and cells stay missing only if the unit has no value at all.", "quantifier": "all panels and missingness patterns", "why_tests_cant": "All patterns.", "anchors": ["diff_diff/prep.py:balance_panel (290-389)"]}
{"id": "C49", "title": "wide_to_long is lossless", "statement": "The result has n_units * n_periods rows and the value at (unit, time_values[j]) is the value in column j of that unit's row, sorted by unit then time; mismatched lengths are rejected.", "quantifier": "all wide tables", "why_tests_cant": "All tables.", "anchors": ["diff_diff/prep.py:wide_to_long (192-287)"]}
{"id": "C50", "title": "rank_control_units keeps required units and is top-k optimal", "statement": "Scores lie in [0,1], output is sorted by score descending, required units that are eligible always appear, the size is max(n_top, #required) capped by the number of candidates, and no omitted optional unit scores higher than an included optional one. The reported RMSE is the root mean squared gap to the treated mean over the pre-periods, and the outcome and covariate scores are the min-max similarities of RMSE and standardised covariate distance over the eligible units.", "quantifier": "all score vectors and requirement sets", "why_tests_cant": "All lists.", "anchors": ["diff_diff/prep.py:rank_control_units (782-1123)"]}
{"id": "C51", "title": "validate_did_data accepts only estimable designs", "statement": "If valid is True (two-period data) then the outcome is numeric, no value is missing, treatment is binary and all four cells are non-empty; errors is empty iff valid; it raises iff raise_on_error and not valid.", "quantifier": "all data frames", "why_tests_cant": "All frames.", "anchors": ["diff_diff/prep.py:validate_did_data (392-560)"]}
{"id": "C52", "title": "Significance stars agree with is_significant", "statement": "Stars are a monotone function of the p-value; at alpha=0.05 is_significant holds exactly when at least one '*' is shown; NaN p-values give no stars and are never significant.", "quantifier": "all p-values incl. NaN", "why_tests_cant": "Continuum.", "anchors": ["diff_diff/results.py:_get_significance_stars (183-200)", "diff_diff/results.py:is_significant"]}
{"id": "C53", "title": "summary(alpha) prints an interval at the printed level", "statement": "The confidence level printed by summary(alpha) is the level of the interval printed next to it.", "quantifier": "all alphas", "why_tests_cant": "All alphas.", "anchors": ["diff_diff/results.py:DiDResults.summary (70-160)"]}
{"id": "C54", "title": "TROP absorbing-state validation", "statement": "fit rejects a panel exactly when some unit has an observed treated period followed (possibly across missing periods) by an observed untreated one; accepted binary panels are 'zero before a start date, one from it on' on observed cells.", "quantifier": "all panels and missingness patterns", "why_tests_cant": "All sequences.", "anchors": ["diff_diff/trop.py:fit (1914-1936)"]}
{"id": "C55", "title": "TROP tuning search returns a grid minimiser and never gets worse", "statement": "The univariate search returns a grid value attaining the minimum score over the grid (first one in grid order); every coordinate-descent cycle does not increase the score, so the final score is at most that of the starting point; selected values are members of the user's grids.", "quantifier": "all score functions and grids", "why_tests_cant": "All functions on grids; any number of cycles.", "anchors": ["diff_diff/trop.py:_univariate_loocv_search (694-777)", "diff_diff/trop.py:_cycling_parameter_search (779-854)"]}
{"id": "C56", "title": "TROP infinity parameters mean 'disabled'", "statement": "A grid value of infinity for the time or unit parameter is equivalent to 0 everywhere: search, final score, estimation and variance.", "quantifier": "all grids and selections", "why_tests_cant": "Every combination of infinities.", "anchors": ["diff_diff/trop.py:fit (2076-2120)", "diff_diff/trop.py:_univariate_loocv_search"]}
{"id": "C57", "title": "TROP variance estimation recomputes weights from the resampled data", "statement": "Bootstrap and jackknife replicates use observation weights computed from the replicate's own outcomes and treatment matrix.", "quantifier": "all panels and resamples", "why_tests_cant": "Stateful: depends on cached structures from the main fit.", "anchors": ["diff_diff/trop.py:_compute_observation_weights (2236-2359)", "diff_diff/trop.py:_bootstrap_variance (2752-2906)", "diff_diff/trop.py:_fit_with_fixed_lambda (3005-3078)"]}
{"id": "C58", "title": "Backend selection", "statement": "DIFF_DIFF_BACKEND=python always disables the Rust backend, =rust either enables it or fails at import, any other value uses it exactly when available; comparison is case-insensitive.", "quantifier": "all strings and availability", "why_tests_cant": "All strings.", "anchors": ["diff_diff/_backend.py (1-92)"]}
{"id": "C59", "title": "MultiPeriodDiD average effect and NaN propagation", "statement": "The average ATT is the mean of post-period effects with variance 1'V1/n^2 of the post block (non-negative for PSD V), and is NaN in all fields if any post effect is NaN.", "quantifier": "all numbers of periods and covariance matrices", "why_tests_cant": "All sizes.", "anchors": ["diff_diff/estimators.py:MultiPeriodDiD.fit (649-1032)"]}
{"id": "C60", "title": "Wild cluster bootstrap imposes the null", "statement": "Bootstrap samples are generated from a fit with the null hypothesis imposed, so that the bootstrap distribution of the t statistic is centred at zero for every value of the true effect.", "quantifier": "all data and weight draws", "why_tests_cant": "Distributional for all data.", "anchors": ["diff_diff/utils.py:wild_bootstrap_se (312-520)"]}
{"id": "C61", "title": "Synthetic weights fit at least as well as equal weights", "statement": "For every control matrix, treated pre-period path, penalty, tolerance and iteration budget, the optimised unit weights (before tiny weights are dropped) have a penalised pre-period fit no worse than equal weights, more iterations never make it worse, and weights at which the optimiser has stopped moving minimise the documented objective over all probability vectors.", "quantifier": "all inputs, all iteration budgets, all competitor weight vectors", "why_tests_cant": "Descent must hold for every iterate on every input and optimality ranges over all competitors.", "anchors": ["diff_diff/utils.py:_compute_synthetic_weights_numpy (1069-1109)", "rust/src/weights.rs:compute_synthetic_weights_internal (54-110)"]}
{"id": "C62", "title": "Choice of backend does not change synthetic weights", "statement": "compute_synthetic_weights returns the same weights (up to rounding) whether the Rust backend is installed or not.", "quantifier": "all inputs", "why_tests_cant": "Equality of two optimisers for all inputs; agreement on samples with small outcomes hides divergence for larger outcomes.", "anchors": ["diff_diff/utils.py:compute_synthetic_weights (997-1066)", "rust/src/weights.rs:compute_synthetic_weights_internal (54-110)"]}
{"id": "C63", "title": "SyntheticDiD bootstrap p-value responds to the effect", "statement": "With variance_method='bootstrap', an estimate that is large relative to its reported standard error has a small reported p_value; in particular significance never contradicts the t statistic by an arbitrary amount.", "quantifier": "all sets of bootstrap replicates and all effects", "why_tests_cant": "Ranges over every set of replicates; a test sees one draw.", "anchors": ["diff_diff/synthetic_did.py:fit (328-343)", "diff_diff/synthetic_did.py:_bootstrap_se (456-568)"]}
{"id": "C64", "title": "absorb= recovers the treatment effect and agrees with fixed_effects=", "statement": "If the outcome is a sum of unit effects, period effect and an additive treatment effect, DifferenceInDifferences.fit(..., absorb=[unit]) returns that effect, and the same att as entering the unit dummies through fixed_effects=[unit].", "quantifier": "every panel (balanced or not), every assignment of units to groups, every effect size", "why_tests_cant": "needs all panel shapes; the tests use balanced panels, where the two coincide", "anchors": ["diff_diff/estimators.py:DifferenceInDifferences.fit (236-247)"]}
{"id": "C65", "title": "Every accepted full-rank design gets a variance matrix or a documented error", "statement": "For every design that passes validation (n >= k) and has full column rank, requesting robust or cluster-robust standard errors either returns a variance matrix or raises ValueError.", "quantifier": "every design matrix, residual vector and clustering", "why_tests_cant": "the saturated case n = k is a boundary of an unbounded family of shapes", "anchors": ["diff_diff/linalg.py:compute_robust_vcov (823-871)"]}
{"id": "C66", "title": "Both backends return the same robust variance matrix", "statement": "For every accepted input the interpreted and compiled backends return the same HC1 or cluster-robust variance matrix, including when cluster identifiers are missing for some rows; when no matrix can be returned both raise the same kind of error.", "quantifier": "every design, residual vector, cluster vector (with missing values)", "why_tests_cant": "compares two implementations over all inputs; CI runs one backend on hand-picked inputs", "anchors": ["diff_diff/linalg.py:compute_robust_vcov (755-787), _compute_robust_vcov_numpy (790-871), _factorize_cluster_ids (58-77)", "rust/src/linalg.rs:compute_robust_vcov_internal (193-277)"]}
{"id": "C67", "title": "The df argument of get_inference selects the documented distribution", "statement": "LinearRegression.get_inference(i, df=d) uses a t distribution with d degrees of freedom, and df=None uses the normal distribution as the docstring says.", "quantifier": "every fitted regression, coefficient and df argument", "why_tests_cant": "ranges over all fitted states; the default value and the documented sentinel are the same object", "anchors": ["diff_diff/linalg.py:LinearRegression.get_inference (1253-1343)"]}
{"id": "C68", "title": "A TROP confidence interval and p-value never contradict each other", "statement": "At the configured alpha, the TROP interval excludes zero exactly when the p-value is below alpha.", "quantifier": "every estimate, positive standard error, number of treated observations and alpha", "why_tests_cant": "the disagreement region shrinks with the sample size and is missed by fixed seeds", "anchors": ["diff_diff/trop.py:TROP.fit (2189-2197), TROP._fit_joint (1512-1519)"]}
{"id": "C69", "title": "set_params accepts only documented parameters", "statement": "set_params raises ValueError for every key that is not a documented parameter of the class; it cannot overwrite methods or results.", "quantifier": "every estimator class, object state and key", "why_tests_cant": "ranges over all strings; tests try one bogus name", "anchors": ["diff_diff/estimators.py:set_params (610-628)", "diff_diff/staggered.py:set_params (1099-1106)", "diff_diff/trop.py:set_params (3096-3103)"]}
{"id": "C70", "title": "set_params and the constructor are interchangeable", "statement": "Configuring a default object by set_params(**kw) gives an object that behaves like one constructed with **kw.", "quantifier": "every estimator class and every set of valid keyword arguments", "why_tests_cant": "needs all combinations of options; derived attributes are only visible through later behaviour", "anchors": ["diff_diff/staggered.py:CallawaySantAnna.__init__ (295-369), set_params (1099-1106)", "diff_diff/staggered_bootstrap.py:_run_multiplier_bootstrap (383)", "diff_diff/honest_did.py:HonestDiD.__init__ (996-1013)"]}
{"id": "C71", "title": "Covariate-adjusted Callaway-Sant'Anna estimators identify the effect and are doubly robust", "statement": "With covariates, the control weights of the IPW estimator are positive and sum to one and the odds used never exceed 99; if the untreated change is a common constant the regression, IPW and doubly robust estimators return the average effect of the treated; the doubly robust estimator is exact if either the outcome predictions are exact or the clipped odds balance the treated and control groups; influence functions of IPW and the doubly robust estimator are centred at the estimate; a redundant (collinear) covariate does not change the estimate.", "quantifier": "all samples, outcome changes, covariates, fitted propensity scores and coefficient vectors", "why_tests_cant": "Identification and robustness are statements about every sample and every fitted nuisance function.", "anchors": ["diff_diff/staggered.py:_outcome_regression (829-894)", "diff_diff/staggered.py:_ipw_estimation (896-985)", "diff_diff/staggered.py:_doubly_robust (987-1080)", "diff_diff/staggered.py:_linear_regression (109-146)"]}
{"id": "C72", "title": "Bootstrap p-value and percentile interval agree about zero", "statement": "For every vector of bootstrap draws and every alpha, the reported p-value is below alpha exactly when the reported (1-alpha) percentile interval excludes zero.", "quantifier": "all draw vectors, estimates and alpha in (0,1)", "why_tests_cant": "Ranges over all finite samples of draws and all levels.", "anchors": ["diff_diff/staggered_bootstrap.py:_compute_percentile_ci (630-638)", "diff_diff/staggered_bootstrap.py:_compute_bootstrap_pvalue (640-683)"]}
{"id": "C73", "title": "Sun-Abraham bootstrap inference reflects only estimable replicates", "statement": "When bootstrap replicates of SunAbraham cannot be estimated (for instance the resample contains no never-treated unit), they do not contribute invented draws: a fit whose replicates all fail does not report a zero standard error, a one-point interval or a significant effect.", "quantifier": "all panels, seeds and numbers of replicates, including the cases where some or all replicates fail", "why_tests_cant": "Failed replicates occur only for particular resamples; a test with a fixed seed and a comfortable panel never sees one.", "anchors": ["diff_diff/sun_abraham.py:SunAbraham._run_bootstrap", "diff_diff/sun_abraham.py:SABootstrapResults"]}
{"id": "C74", "title": "Sun-Abraham control group option", "statement": "Choosing control_group='not_yet_treated' instead of 'never_treated' in SunAbraham has the documented effect; as the code stands the two options give identical results on every data set whose first-treatment values are zero, positive or infinite.", "quantifier": "all data sets with valid first-treatment codes, all anticipation values, all regression back ends", "why_tests_cant": "Equality of two options on every data set cannot be established by trying data sets.", "anchors": ["diff_diff/sun_abraham.py:SunAbraham.fit"]}
{"id": "C75", "title": "Triple difference standard errors do not depend on the level of the outcome", "statement": "Adding the same constant to every outcome leaves the standard error of the triple difference unchanged for every estimation method, and constant outcomes give a zero standard error.", "quantifier": "all data sets with eight non-empty cells, all constants, all propensity scores", "why_tests_cant": "Holds or fails over a continuum of outcome levels; a test compares one level.", "anchors": ["diff_diff/triple_diff.py:TripleDifference._compute_ipw_se", "diff_diff/triple_diff.py:TripleDifference._doubly_robust", "diff_diff/triple_diff.py:TripleDifference._regression_adjustment"]}
{"id": "C76", "title": "Multi-period effects are treated-control gaps net of the pooled pre-period gap", "statement": "MultiPeriodDiD classifies every period of the data as either pre or post, refuses exactly the documented invalid inputs, and reports for each post period the treated-control gap of that period minus the pre-period gap (pooled over pre periods when the treated share does not vary over them); outcomes made of group effects, period effects and period-specific treatment effects give back exactly those treatment effects, for any group sizes and any reference period.", "quantifier": "all numbers of periods, choices of post and reference periods, group sizes and outcomes; every least-squares solution", "why_tests_cant": "the identification claim quantifies over all panels and all outcomes; tests fit simulated data with noise", "anchors": ["diff_diff/estimators.py:MultiPeriodDiD.fit"]}
{"id": "C77", "title": "HonestDiD verdicts never overstate robustness", "statement": "An effect is called significant only if a real robust interval excludes zero; a missing breakdown value means the effect stays significant for every M; a breakdown of zero is shown as such; invalid M (negative) is refused wherever it can be passed.", "quantifier": "all results objects, all M, all significance profiles", "why_tests_cant": "NaN intervals, breakdowns beyond the search range and overrides of M are corner cases of continuous parameters; tests sample a few values", "anchors": ["diff_diff/honest_did.py:HonestDiDResults.is_significant", "diff_diff/honest_did.py:HonestDiD.breakdown_value", "diff_diff/honest_did.py:SensitivityResults.__repr__", "diff_diff/honest_did.py:HonestDiD.fit"]}
{"id": "C78", "title": "Pre-trends power analysis accepts every event study with pre-treatment periods", "statement": "PreTrendsPower.fit on the results of a MultiPeriodDiD fit that has pre-treatment periods runs and uses the estimates of the pre-treatment periods, whatever the treatment column is called.", "quantifier": "all MultiPeriodDiD fits, period sets and column names", "why_tests_cant": "Column names and period layouts are unbounded; the shipped tests use one name.", "anchors": ["diff_diff/pretrends.py:_extract_pre_period_params (528-645)", "diff_diff/estimators.py:MultiPeriodDiD.fit (846-887)"]}
{"id": "C79", "title": "Design variance used for power is the variance of the estimator", "statement": "For independent errors with standard deviation sigma, the variance behind power(), mde() and sample_size() is the variance of the difference-in-differences of cell means for the given numbers of units and of periods before and after treatment.", "quantifier": "all numbers of treated and control units, periods and sigma", "why_tests_cant": "Tests compare single designs with themselves; the identity ranges over all designs.", "anchors": ["diff_diff/power.py:_compute_variance (423-485)", "diff_diff/power.py:mde (579-644)"]}
{"id": "C80", "title": "run_all_placebo_tests runs every test", "statement": "On a panel with several pre-treatment periods and a post-treatment period, run_all_placebo_tests returns a result (not an error entry) for the fake-timing tests, the permutation test and the leave-one-out test; run_placebo_test dispatches to exactly the named test and rejects unknown names and missing arguments.", "quantifier": "all panels, period lists, random draws and estimators", "why_tests_cant": "Tests check that the keys exist; an error entry also satisfies that, and no finite set of panels shows that the two kinds of test can never succeed together.", "anchors": ["diff_diff/diagnostics.py:run_all_placebo_tests", "diff_diff/diagnostics.py:run_placebo_test"]}
{"id": "C81", "title": "The fake-group placebo test uses only never-treated data", "statement": "The estimate of placebo_group_test does not depend on the outcomes of truly treated units: if untreated units have exactly parallel trends, the placebo effect is zero whatever the treatment effect is.", "quantifier": "all panels, fake groups and treatment effects", "why_tests_cant": "Tests pass data without treated units or look only at the sign; the contamination grows with the effect and the share of treated units.", "anchors": ["diff_diff/diagnostics.py:placebo_group_test"]}
{"id": "C82", "title": "Leave-one-out effects and their precision", "statement": "With at least two treated units there is one leave-one-out effect per treated unit, equal to the estimate on the data without that unit; with one treated unit the test fails; the reported standard error and p-value do not overstate the precision of the average effect.", "quantifier": "all panels, numbers of treated units and effect profiles", "why_tests_cant": "Tests check a few panels for presence of keys; the missing scale factor depends on the number of treated units.", "anchors": ["diff_diff/diagnostics.py:leave_one_out_test"]}
{"id": "C83", "title": "Indicator columns follow exactly the stated rule", "statement": "make_treatment_indicator and make_post_indicator succeed exactly when one (and only one) of the two ways of defining the group is given and the column exists; the new column is 0/1 and a present value gets 1 exactly when it satisfies the rule (in the list, at or above / at or below the threshold, inclusive). A missing value should not be classified.", "quantifier": "all columns, value lists, thresholds and directions", "why_tests_cant": "All columns; boundary values and missing cells.", "anchors": ["diff_diff/prep.py:make_treatment_indicator (34-113)", "diff_diff/prep.py:make_post_indicator (116-189)"]}
{"id": "C84", "title": "Event time is periods since treatment, missing for the never treated", "statement": "create_event_time gives time minus treatment date, negative before, zero at and positive after treatment, and a missing value for never-treated units (missing or infinite date).", "quantifier": "all extended-real times and treatment dates", "why_tests_cant": "All values including NaN and infinities.", "anchors": ["diff_diff/prep.py:create_event_time (655-717)"]}
{"id": "C85", "title": "The summary table's DiD line is the estimate", "statement": "For two-period data with a 0/1 treatment column, the 'DiD Estimate' line of summarize_did_data is defined exactly when all four cells have data and equals the ATT of DifferenceInDifferences with the later period as post.", "quantifier": "all two-period data sets", "why_tests_cant": "Agreement of two independent code paths on all data.", "anchors": ["diff_diff/prep.py:summarize_did_data (563-652)", "diff_diff/estimators.py:DifferenceInDifferences.fit"]}
{"id": "C86", "title": "aggregate_to_cohorts is a faithful aggregation", "statement": "One line per treatment-period combination present in the data, in ascending order, with the mean outcome over exactly those rows and the number of distinct units in them.", "quantifier": "all data sets", "why_tests_cant": "All data sets.", "anchors": ["diff_diff/prep.py:aggregate_to_cohorts (720-779)"]}
{"id": "C87", "title": "rank_control_units suggests treatment candidates when no treatment is given", "statement": "When called with suggest_treatment_candidates and without treatment information, the output lists distinct units that have pre-period rows, at most n_treatment_candidates of them, in descending order of score; every defined score lies in [0,1]; no unit left out has a strictly higher score than one kept. Each line reports the mean of the unit's observed pre-period outcomes, the trend of its outcome over time, and the number of other units whose mean is closer to it than half a standard deviation.", "quantifier": "all panels, options and tie orders", "why_tests_cant": "Every panel, every missing-value pattern and every order an unstable sort may choose for ties.", "anchors": ["diff_diff/prep.py:rank_control_units", "diff_diff/prep.py:_suggest_treatment_candidates"]}
{"id": "C88", "title": "Result exports carry the stored numbers", "statement": "to_dict, to_dataframe, get_effect and the printed rows of a results object agree: every exported entry for a period, cohort or headline equals the stored effect, standard error, p-value and interval; a missing level or missing period raises instead of returning something else.", "quantifier": "all results objects with distinct periods that print differently", "why_tests_cant": "Any number of periods, any identifiers.", "anchors": ["diff_diff/results.py:DiDResults.to_dict (137-160)", "diff_diff/results.py:MultiPeriodDiDResults (252-476)", "diff_diff/staggered_results.py:CallawaySantAnnaResults.to_dataframe (224-286)"]}
{"id": "C89", "title": "Synthetic DiD summary shows the largest weights", "statement": "The summary prints at most five unit weights, the largest ones, in descending order and only above 0.001; the count line is the number of stored weights above 0.001.", "quantifier": "all weight dictionaries", "why_tests_cant": "Any number of units, any ties.", "anchors": ["diff_diff/results.py:SyntheticDiDResults.summary (556-643)"]}
{"id": "C90", "title": "TROP counterfactuals do not use treated outcomes", "statement": "The tuning parameters, the stored cross-validation score and the fitted counterfactual of every cell are the same for two panels that differ only in the outcomes of treated cells; adding a constant to all treated outcomes moves the reported average effect by exactly that constant.", "quantifier": "all panels, missingness patterns, grids (including infinite values) and iteration counts", "why_tests_cant": "The estimate passes through distance weights, an iterative solver and a data-driven tuning search; leakage of one treated outcome anywhere would only shift results slightly.", "anchors": ["diff_diff/trop.py:TROP.fit (2036-2161)", "diff_diff/trop.py:TROP._estimate_model (2517-2639)", "diff_diff/trop.py:TROP._compute_observation_weights (2236-2359)"]}
{"id": "C91", "title": "TROP estimates do not depend on the origin of the outcome", "statement": "Adding one constant to every outcome leaves each cell effect and the average effect unchanged.", "quantifier": "all panels, shifts and tuning parameters", "why_tests_cant": "Needs every panel; iterative solver stops by an absolute tolerance.", "anchors": ["diff_diff/trop.py:TROP._estimate_model (2517-2639)", "diff_diff/trop.py:TROP.fit (2121-2164)"]}
{"id": "C92", "title": "TROP: missing outcomes and missing treatment", "statement": "Treated cells without an outcome do not enter the average effect; rows without a treatment value are not used as untreated observations.", "quantifier": "all panels and missingness patterns", "why_tests_cant": "Every pattern of missing cells.", "anchors": ["diff_diff/trop.py:TROP.fit (1899-1912, 2134-2161)"]}
{"id": "C93", "title": "TROP weights have the documented shape", "statement": "Time weights are 1 in the target period, between 0 and 1, and do not increase with distance; unit weights are 1 for the target unit, 0 for units treated in the target period, between 0 and 1, larger for closer units, and all 1 when the parameter is 0.", "quantifier": "all panels, targets and non-negative parameters", "why_tests_cant": "Ranges over all distances and treatment patterns.", "anchors": ["diff_diff/trop.py:TROP._compute_observation_weights (2236-2359)", "diff_diff/trop.py:TROP._compute_unit_distance_for_obs (648-692)"]}
{"id": "C94", "title": "TROP alternating minimisation decreases its objective", "statement": "Each fixed-effects update minimises the weighted sum of squared residuals over that block, so a sweep never increases it; if a sweep leaves the fixed effects unchanged they minimise the weighted sum of squares jointly given the factor matrix.", "quantifier": "all outcomes, non-negative weights and current iterates", "why_tests_cant": "Optimality is a statement about all competing fixed effects.", "anchors": ["diff_diff/trop.py:TROP._estimate_model (2596-2639)"]}
{"id": "C95", "title": "TROP recovers effects exactly when untreated outcomes are unit levels", "statement": "If every observed untreated outcome equals its unit's level, each effect is the treated outcome minus that level, for any tuning parameters and any positive number of iterations.", "quantifier": "all panels, missingness patterns and tuning parameters", "why_tests_cant": "Needs all weights and all parameters at once.", "anchors": ["diff_diff/trop.py:TROP._estimate_model (2517-2639)", "diff_diff/trop.py:TROP.fit (2121-2164)"]}
{"id": "C96", "title": "TROP joint method solves the documented weighted least squares problem", "statement": "Without a factor matrix, fit(method='joint') minimises the weighted sum of squared residuals over observed cells among all intercepts, unit effects, period effects and a common effect; it fails exactly when the weights of observed cells vanish.", "quantifier": "all panels, missingness patterns and non-negative weights", "why_tests_cant": "Optimality is over all competing parameters.", "anchors": ["diff_diff/trop.py:TROP._solve_joint_no_lowrank (1040-1129)", "diff_diff/trop.py:TROP._solve_joint_with_lowrank (1131-1215)"]}
{"id": "C97", "title": "TROP joint method recovers a constant effect exactly", "statement": "If untreated outcomes are unit plus period effects and the effect is constant, the reported ATT is exactly that effect whatever grids, subsamples and tuning parameters are used, with or without factor matrix.", "quantifier": "all panels with a 2x2 rectangle of usable cells, all grids", "why_tests_cant": "Holds for every tuning parameter and iteration count.", "anchors": ["diff_diff/trop.py:TROP._fit_joint (1217-1475)"]}
{"id": "C98", "title": "TROP joint estimates do not depend on the origin of the outcome", "statement": "Adding a level to each period and c times the treatment to the outcome leaves the tuning unchanged and moves the ATT by exactly c; the same for levels added to units.", "quantifier": "all panels, levels and c", "why_tests_cant": "Relates two runs of the whole search and fit.", "anchors": ["diff_diff/trop.py:TROP._fit_joint (1217-1475)", "diff_diff/trop.py:TROP._compute_joint_weights (860-953)"]}
{"id": "C99", "title": "TROP joint tuning is a global grid minimum", "statement": "The selected tuning parameters come from the grids and minimise the leave-one-out score over all combinations; defaults are used exactly when nothing can be scored; an infinite value means 0 for decay and 'no factor matrix' for the penalty.", "quantifier": "all grids and panels", "why_tests_cant": "Ranges over all grids.", "anchors": ["diff_diff/trop.py:TROP._fit_joint (1290-1400)"]}
{"id": "C100", "title": "TROP joint method accepts exactly simultaneous adoption", "statement": "fit(method='joint') accepts a panel exactly if the two-step method would and all treated units adopt at the same date.", "quantifier": "all panels", "why_tests_cant": "Ranges over all row sets, including unbalanced ones.", "anchors": ["diff_diff/trop.py:TROP._fit_joint (1217-1290)"]}
{"id": "C101", "title": "TROP joint weights have the documented shape", "statement": "Unit weights decrease with the pre-treatment distance to the treated average and use pre-treatment outcomes only; time weights decrease with the distance to the centre of the treated block.", "quantifier": "all panels and non-negative parameters", "why_tests_cant": "Ranges over all distances.", "anchors": ["diff_diff/trop.py:TROP._compute_joint_weights (860-953)"]}
{"id": "C102", "title": "TROP joint jackknife leaves the unit out", "statement": "The replicate that leaves a treated unit out does not depend on that unit's outcomes; with a single treated unit there is no replicate.", "quantifier": "all panels", "why_tests_cant": "Independence from data is a statement about all data.", "anchors": ["diff_diff/trop.py:TROP._jackknife_variance_joint (1746-1823)"]}
{"id": "C103", "title": "Leave-one-out predictions do not use the held-out outcome", "statement": "In cross-validation, the prediction for a held-out untreated cell is the same whatever the outcome of that cell is, for both methods.", "quantifier": "all panels, cells and tuning parameters", "why_tests_cant": "Independence from data is a statement about all data.", "anchors": ["diff_diff/trop.py:TROP._loocv_score_obs_specific (2638-2741)", "diff_diff/trop.py:TROP._loocv_score_joint (955-1038)"]}
{"id": "C104", "title": "TROP results do not depend on the backend", "statement": "With the compiled routines installed, TROP.fit(method='twostep') selects the same tuning parameters, stores the same cross-validation score and fits the same leave-one-out predictions as the pure Python code, up to the random subsample.", "quantifier": "all panels, missingness patterns, grids (including infinite values), iteration limits and tolerances", "why_tests_cant": "Two separate implementations agree on the inputs a test tries; agreement is a statement about every panel and every parameter.", "anchors": ["rust/src/trop.rs:loocv_grid_search (170-405)", "rust/src/trop.rs:compute_weight_matrix (561-624)", "rust/src/trop.rs:estimate_model (636-768)", "diff_diff/trop.py:TROP.fit (1983-2097)"]}
{"id": "C105", "title": "TROP without a nuclear norm penalty", "statement": "With lambda_nn = 0 the model fitted for a cell reproduces every observed untreated cell that has weight, does not depend on max_iter or tol, and recovers the effect when untreated outcomes are exactly parallel.", "quantifier": "all panels, missingness patterns, time and unit parameters, positive iteration limits and tolerances", "why_tests_cant": "A statement about every iteration count of an iterative solver and every panel.", "anchors": ["diff_diff/trop.py:TROP._weighted_nuclear_norm_solve (2422-2515)", "diff_diff/trop.py:TROP._estimate_model (2517-2639)"]}
{"id": "C106", "title": "Simulated power is the rejection share among usable simulations", "statement": "simulate_power returns a result exactly when there is at least one effect size, the data generator never raises and every effect size has at least one simulation with a usable result. Each reported power is the number of simulations whose p-value is below alpha over the number of simulations with a usable result; all powers, the coverage and the power interval lie in [0, 1] and the interval contains the power; a larger alpha never lowers a power; appending effect sizes does not change earlier powers; the headline effect is the only one, else the first within tolerance of treatment_effect, else the last. Claims that fail: power as a share of the requested simulations, availability for every estimator that has a branch, independence of the position in the list.", "quantifier": "every number of simulations, significance level, list of effect sizes, and every behaviour of data generator and estimator at each draw", "why_tests_cant": "The tests run a few dozen simulations of one estimator; the statement ranges over every pattern of failures, missing p-values and result classes", "anchors": ["diff_diff/power.py: simulate_power", "diff_diff/power.py: SimulationPowerResults", "diff_diff/staggered_results.py: CallawaySantAnnaResults", "diff_diff/sun_abraham.py: SunAbrahamResults"]}
{"id": "C107", "title": "Coverage, bias and rmse of simulated power", "statement": "For the headline effect, coverage is the share of usable simulations whose interval contains the effect used to generate the data, mean_estimate the average of their estimates and bias that average minus the effect; rmse should be the root mean squared error of the estimates. The last claim fails: the squared rmse exceeds the mean squared error by the sum of squared deviations over n(n-1), and rmse is missing with a single usable simulation.", "quantifier": "every number of simulations and every behaviour of data generator and estimator, including missing estimates", "why_tests_cant": "A test compares one run with numbers that are close for large n; the discrepancy is systematic and depends on n", "anchors": ["diff_diff/power.py: simulate_power", "diff_diff/power.py: SimulationPowerResults.__post_init__"]}
{"id": "C108", "title": "TROP results do not depend on the order of the units", "statement": "Numbering the units in another order changes nothing but the numbering: cell effects, the average effect, the leave-one-out score over all control cells, the selected tuning parameters and the stored score stay the same. In the compiled bootstrap a replicate depends only on which units were drawn and how often, and the replicate drawing every unit exactly once reproduces the average effect computed by the same routine. The claim fails for the tuning step once control cells are subsampled, because cells are drawn by position.", "quantifier": "every panel (missing outcomes included), every rearrangement of the units, every grid, every bootstrap draw, every iteration limit and tolerance", "why_tests_cant": "A test can try a few shuffles of one data set; equality must hold for every panel and every permutation, through every iteration of the alternating minimisation", "anchors": ["diff_diff/trop.py: TROP.fit", "diff_diff/trop.py: TROP._estimate_model", "diff_diff/trop.py: TROP._loocv_score_obs_specific", "rust/src/trop.rs: bootstrap_trop_variance", "rust/src/trop.rs: estimate_model"]}
{"id": "C109", "title": "check_parallel_trends compares least-squares trends over the pre-treatment periods", "statement": "check_parallel_trends reports for each group the slope of the least-squares line of the outcome on time over the group's rows in the pre-treatment periods (by default the first half of the distinct periods), with the usual standard error; the verdict is given exactly when the standard error of the difference is positive and says whether the p-value exceeds 0.05. Level differences between groups, a common linear trend, the origin and unit of time and the naming of the groups do not affect the verdict; group means that stay at a constant distance should give a zero trend difference. The call fails exactly when a group has no pre-treatment row. The last-but-one claim fails when the groups have different numbers of rows per period, and two exact lines with different slopes get no verdict.", "quantifier": "every data set (missing outcomes, unbalanced groups and any number of rows included), every list of periods, every p-value function", "why_tests_cant": "Tests use one or two simulated data sets with noise; the claims range over all compositions of the groups over periods and include degenerate residuals", "anchors": ["diff_diff/utils.py: check_parallel_trends"]}
{"id": "C110", "title": "The equivalence test certifies a small difference in trends", "statement": "equivalence_test_trends gives a verdict exactly when each group has at least two changes and the changes of some group are not all equal. When it says equivalent, the mean difference is smaller than the margin; this happens exactly when the 90 percent interval lies inside the margins; it never happens with a margin of zero or less; a larger margin cannot undo it. Degrees of freedom lie between the smaller group size minus one and the total minus two. Unit or group levels, the unit of measurement and the naming of the groups do not matter. The mean difference without unit column depends on the first and last period only. Not true: groups in exact parallel motion get no verdict; equal paths observed in different periods get a non-zero difference; a jump inside the window has no influence on the verdict however large it is.", "quantifier": "every data set, every list of periods, every margin, with and without unit column", "why_tests_cant": "The tests check a handful of simulated panels; bounds, invariances and the interval equivalence must hold for every list of changes", "anchors": ["diff_diff/utils.py: equivalence_test_trends", "diff_diff/utils.py: _compute_outcome_changes"]}
{"id": "C111", "title": "The distributional pre-trend test", "statement": "check_parallel_trends_robust calls the groups parallel exactly when more than one in twenty of the drawn permutations has a distance no smaller than the observed one and the distance is below the threshold times the pooled standard deviation (unless that is zero). The distance is at least the mean difference in size, so parallel groups differ in mean change by less than threshold times standard deviation. Groups with the same changes get distance 0, p-value 1 and a positive verdict. The unit of measurement does not matter. A permutation that keeps the groups counts. Not true: the p-value is never zero; without permutations there is no verdict.", "quantifier": "every data set, every set of drawn permutations, every threshold", "why_tests_cant": "A test uses one seed; the claims hold for every draw of permutations and every pair of samples", "anchors": ["diff_diff/utils.py: check_parallel_trends_robust", "diff_diff/utils.py: _compute_outcome_changes"]}
{"id": "C112", "title": "Generated data sets are complete and consistent with their recorded true effects", "statement": "Every panel generator returns each (unit, period) pair exactly once. Two calls with the same seed and with the treatment effect set to the requested value and to zero differ row by row by exactly the recorded true_effect column; that column is the requested effect on treated post-treatment rows (growing linearly with exposure under dynamic effects) and zero elsewhere. In the staggered generator treatment starts exactly at first_treat, and first_treat is 0 exactly for never-treated units. The number of treated units is the requested share rounded down and the treated units are the first ones.", "quantifier": "every configuration, every sequence of random draws, every seed", "why_tests_cant": "A test looks at a few seeds and sizes; the claim is about every configuration and every draw", "anchors": ["diff_diff/prep_dgp.py: generate_did_data", "diff_diff/prep_dgp.py: generate_staggered_data", "diff_diff/prep_dgp.py: generate_factor_data", "diff_diff/prep_dgp.py: generate_ddd_data", "diff_diff/prep_dgp.py: generate_panel_data", "diff_diff/prep_dgp.py: generate_event_study_data"]}
{"id": "C113", "title": "Two-group generators deliver the requested effect to the 2x2 estimator", "statement": "Fitting DifferenceInDifferences to generate_did_data, generate_panel_data or generate_event_study_data returns the requested effect plus the difference in differences of the noise, whatever the draws, hence exactly the effect without noise. With parallel_trends=False the estimate is off by the trend violation times half the number of periods, and check_parallel_trends reports a trend difference larger by exactly the violation with the same standard errors. The data are accepted by the estimator exactly when at least one unit is treated, at least one is not and the treatment date lies strictly inside the panel.", "quantifier": "every configuration, every sequence of random draws", "why_tests_cant": "Tests check one seed within a tolerance; the identity is exact and holds for every draw", "anchors": ["diff_diff/prep_dgp.py: generate_did_data", "diff_diff/prep_dgp.py: generate_panel_data", "diff_diff/estimators.py: DifferenceInDifferences.fit", "diff_diff/utils.py: check_parallel_trends"]}
{"id": "C114", "title": "Event-study data deliver the requested effect in every post period", "statement": "Fitting MultiPeriodDiD to generate_event_study_data with the true post periods gives, for every choice of reference period and every least-squares solution, period effects equal to the requested effect plus the noise gap of the period minus the pooled noise gap of the pre periods; without noise each period effect and their average are exactly the requested effect. With as many pre as post periods the default post periods are the true ones.", "quantifier": "every configuration, every sequence of random draws, every reference period", "why_tests_cant": "A test fits a few seeds; the identity holds for every draw and every panel size", "anchors": ["diff_diff/prep_dgp.py: generate_event_study_data", "diff_diff/estimators.py: MultiPeriodDiD.fit"]}
{"id": "C115", "title": "Staggered data deliver the requested effects to CallawaySantAnna", "statement": "Every group-time effect reported by CallawaySantAnna on generate_staggered_data is the effect given to that cohort in that period (zero before treatment) plus the same estimator applied to the noise alone. Without noise the overall effect is exactly the requested one when effects do not grow, and otherwise lies between the effect at the start and after the longest exposure. With a never-treated unit, every cohort that received a unit gets an estimate in every period after the first. The default cohorts work exactly for panels of at least three periods. Not true: with not-yet-treated controls and the universal base period, pre-treatment estimates on noise-free data are zero.", "quantifier": "every configuration, every assignment of units to cohorts, every sequence of random draws, both control groups, both base periods", "why_tests_cant": "Tests use a few seeds and default cohorts; the claim covers every assignment and every draw", "anchors": ["diff_diff/prep_dgp.py: generate_staggered_data", "diff_diff/staggered.py: CallawaySantAnna.fit"]}
{"id": "C116", "title": "Triple-difference data deliver the requested effect by all three methods", "statement": "generate_ddd_data puts exactly n_per_cell rows in each of the eight cells with distinct unit identifiers. Without covariates, TripleDifference by regression, inverse probability weighting and doubly robust (trimming up to one quarter) all return the requested effect plus the triple difference of noise and covariate contributions, so exactly the effect when there are neither. With generated covariates and no noise, regression adjustment with both covariates is exact whenever the columns are linearly independent.", "quantifier": "every configuration, every sequence of random draws, every trimming value", "why_tests_cant": "Tests check recovery within a tolerance for one seed; the identity is exact for every draw", "anchors": ["diff_diff/prep_dgp.py: generate_ddd_data", "diff_diff/triple_diff.py: TripleDifference.fit"]}
{"id": "C117", "title": "What SyntheticDiD reports on factor data", "statement": "On generate_factor_data, SyntheticDiD reports the requested effect, plus for each factor the strength times the gap between treated and weighted control loadings times the gap between post and weighted pre factor values, plus the same estimate on the noise, with the non-negative weights it computed. It is exactly the effect without factor contribution and noise. Not true: noise-free data always give exactly the effect.", "quantifier": "every configuration, every sequence of random draws, both backends, every optimiser setting", "why_tests_cant": "A test sees one seed with a loose tolerance; the decomposition holds for every draw and every weight vector the optimiser may return", "anchors": ["diff_diff/prep_dgp.py: generate_factor_data", "diff_diff/synthetic_did.py: SyntheticDiD.fit"]}
{"id": "C118", "title": "Callaway-Sant'Anna bootstrap inference refers to the reported effects", "statement": "With n_bootstrap > 0, CallawaySantAnna.fit changes no point estimate and no set of reported effects. Every group-time, event-study, group and overall effect gets statistics from draws that equal that effect plus the multipliers applied to its own influence function, with one multiplier per unit and draw shared by all effects. Only the zero reference entry of the event study keeps its placeholder inference. An aggregate of one effect has that effect's statistics, adding unit or time constants to the outcomes changes nothing, and an effect without sampling variation gets standard error zero and the interval [v, v].", "quantifier": "All panels, control groups, base periods, anticipation values, aggregation and balancing choices, weight draws and numbers of draws", "why_tests_cant": "Tests compare a few seeded runs with analytic errors within tolerances; that indices, weights and centres agree for every panel and every draw is not observable from them.", "anchors": ["diff_diff/staggered_bootstrap.py:_run_multiplier_bootstrap", "diff_diff/staggered_bootstrap.py:_prepare_event_study_aggregation", "diff_diff/staggered_bootstrap.py:_prepare_group_aggregation", "diff_diff/staggered.py:CallawaySantAnna.fit"]}
{"id": "C119", "title": "SyntheticDiD: accepted data, sample and row order", "statement": "SyntheticDiD.fit accepts a data set exactly if the treatment column is 0/1 (missing values aside), there are at least two periods, a non-empty set of post periods that all occur, at least one other period, at least one treated and one control unit, no (unit, period) pair twice, and every treated and control unit observed in every period. For a treatment indicator that is constant within units, treated and control units are those with indicator 1 and 0, pre and post periods partition the periods as requested, and the result does not depend on the order of the rows or of the post periods.", "quantifier": "every finite table with integer unit and time labels, missing outcomes and indicators allowed, every list of post periods or none, every weight routine, both variance methods, every list of draws", "why_tests_cant": "A test uses a few tables; acceptance and row-order invariance range over all tables and all row permutations, and the failing cases (indicator switching on over time, repeated post periods) only show for particular shapes.", "anchors": ["diff_diff/synthetic_did.py:SyntheticDiD.fit", "diff_diff/synthetic_did.py:SyntheticDiD._create_outcome_matrices", "diff_diff/utils.py:validate_binary"]}
{"id": "C120", "title": "SyntheticDiD: transformations of the data and order of units", "statement": "An effect that changes only post-period outcomes of treated units moves the estimate by its average over treated units and post periods and leaves all weights alone. Adding a number per period to the outcomes of all units changes nothing that fit reports, including standard errors. The order of the units is irrelevant: the estimate is unchanged and each control unit keeps its weight. Adding a number per unit to all its outcomes should likewise leave the estimate alone.", "quantifier": "every panel, every effect, every vector of period effects, every permutation of treated and of control units; weight routines of both backends for every regularisation, tolerance and iteration count", "why_tests_cant": "Invariance under all shifts and permutations involves every run of an iterative projection algorithm; tests fix data and one order.", "anchors": ["diff_diff/synthetic_did.py:SyntheticDiD.fit", "diff_diff/utils.py:compute_synthetic_weights", "diff_diff/utils.py:compute_time_weights", "diff_diff/utils.py:compute_sdid_estimator", "rust/src/weights.rs:compute_synthetic_weights_internal"]}
{"id": "C121", "title": "SyntheticDiD: bootstrap and placebo standard errors", "statement": "A bootstrap draw contributes the estimator applied to the sampled treated and control units (with multiplicity, weights recomputed), is skipped exactly if it lacks one of the groups, and drawing every unit once reproduces the reported estimate. The standard error is the sample standard deviation over usable draws, is unaffected by a constant effect on the treated, and is 0 on exactly additive data with a constant effect. Placebo standard errors do not depend on post-period outcomes of treated units and use the number of placebo estimates as divisor. When no variance can be computed (one usable draw, no draws, no more control than treated units) no standard error should be reported.", "quantifier": "every panel, every list of bootstrap draws and of placebo permutations, every weight routine with non-negative weights summing to one", "why_tests_cant": "Tests see a few seeds; which draws are usable and the degenerate outcomes depend on the drawn positions and on the group sizes.", "anchors": ["diff_diff/synthetic_did.py:SyntheticDiD._bootstrap_se", "diff_diff/synthetic_did.py:SyntheticDiD._placebo_variance_se", "diff_diff/synthetic_did.py:SyntheticDiD.fit"]}
{"id": "C122", "title": "SyntheticDiD with covariates: what adjustment removes and what it costs", "statement": "When `SyntheticDiD.fit` is given covariates, adding unit effects, period effects or effects of the covariates to the outcomes changes nothing that it reports; outcomes without treatment effect give the estimate 0; in general the estimate is the true effect plus, for every covariate, the error of its regression coefficient times the weighted double difference of that covariate. The call is refused for lack of rows exactly when there are fewer rows than covariates plus units plus periods minus one. It would be wrong to rely on an irrelevant covariate leaving the estimate alone, or on a covariate without effect leaving an exact estimate exact: the code violates both.", "quantifier": "all panels, numbers of covariates, covariate values, weights summing to one, least-squares solvers, variance methods and draws", "why_tests_cant": "Whether adjustment preserves the estimate is a statement about all outcome shifts and all regressions; a fixed dataset shows one number.", "anchors": ["diff_diff/synthetic_did.py:SyntheticDiD.fit", "diff_diff/synthetic_did.py:SyntheticDiD._residualize_covariates"]}
{"id": "C123", "title": "The event study plot shows the estimates of the results", "statement": "plot_event_study draws, for every requested period whose estimate is a number and for no other, one point at that estimate with the standard error of the results; points stand left to right in the order of the requested periods; with a finite standard error the error bar is symmetric with half-width critical value times standard error, otherwise there is none. Periods before treatment, and only those, are shaded for event study results. If the caller names a reference period, all points are shifted by the same amount so that the reference is at zero without error bar; without such an argument nothing is shifted.", "quantifier": "every results object accepted by plot_event_study (tables, MultiPeriodDiD, event study results, dictionaries), every list of periods, every pattern of missing estimates and standard errors, every reference period", "why_tests_cant": "Tests check that a figure is returned without error for a handful of results; whether the drawn points agree with the estimates depends on the combination of missing values, requested periods and reference period.", "anchors": ["diff_diff/visualization.py: plot_event_study, _extract_plot_data"]}
{"id": "C124", "title": "A regression does not depend on how the regressors are parametrized", "statement": "LinearRegression.fit on a design X of full column rank and on X A (A any invertible matrix) either fails in both cases with the same error or gives the same residuals, fitted values, R-squared and degrees of freedom, with coefficients and covariances transformed by A; this holds for classical, heteroskedasticity-robust and clustered covariances. In particular, recoding or rescaling the other regressors leaves estimate, standard error, t, p and interval of the treatment coefficient unchanged; measuring regressor j in other units divides its coefficient and interval by the factor and its standard error by the absolute factor; adding multiples of the regressors to the outcome or changing its units shifts and rescales the estimates accordingly. Designs spanning the same columns give the same fitted values even when redundant columns are dropped; a coefficient whose column is no combination of the others has the same estimate and variance whichever redundant columns are dropped, and these are the weighted sums given by the unique weights in the column space orthogonal to the other columns; likewise the covariance of two such coefficients. They are the same for every design with the same combinations, any number of columns and any order of rows.", "quantifier": "all sample sizes, all designs of full column rank, all invertible A, all outcomes, all cluster id assignments, all options, every least-squares solver and square root, over every ordered field (exact arithmetic)", "why_tests_cant": "A test compares two parametrizations of one data set; the claim is about every invertible change of regressors, every covariance option and every outcome, where the sandwich algebra has to cancel.", "anchors": ["/repo/diff_diff/linalg.py LinearRegression.fit, get_inference, r_squared, predict", "/repo/diff_diff/linalg.py solve_ols, _compute_robust_vcov_numpy"]}
{"id": "C125", "title": "The DiD standard errors are those of a difference of four cell means", "statement": "When each treatment/period cell has a row, DifferenceInDifferences.fit without covariates reports as effect the difference in differences of the cell means; with robust=True the squared standard error is n/(n-4) times the sum over cells of (squared deviations from the cell mean)/(cell size squared); with robust=False it is the pooled within-cell variance RSS/(n-4) times the sum of reciprocal cell sizes; with cluster it is built from the weighted deviations summed inside clusters, and in a two-period panel clustered by unit it is the variance of the difference of the arms' mean changes. Test and interval use n-4 degrees of freedom. The fit fails only with one row per cell (robust or clustered) or fewer than two clusters. Absorbing unit effects should agree with adding unit dummies.", "quantifier": "all data sets with four occupied cells, all outcomes, all cluster assignments, all options, all solvers, square roots and reference distributions", "why_tests_cant": "Tests compare with another package on a few data sets up to tolerance; the closed form has to hold for every cell size pattern and every outcome, and the comparison of absorb with explicit dummies is an identity over all two-period panels.", "anchors": ["/repo/diff_diff/estimators.py DifferenceInDifferences.fit", "/repo/diff_diff/linalg.py LinearRegression.fit, get_inference, _compute_robust_vcov_numpy", "/repo/diff_diff/utils.py demean_by_group"]}
{"id": "C126", "title": "Propensity scores are maximum likelihood, independent of coding and optimizer; on discrete covariates they stratify", "statement": "In CallawaySantAnna and TripleDifference with covariates: the propensity scores of the logistic regression are always strictly between 0 and 1. At convergence with gradient tolerance eps the predicted and actual numbers of treated rows, and of every covariate total, agree within eps. Exactly converged fits give each row the same score whatever the optimizer, its starting point or iteration limit, and whatever affine coding of the covariates is used; inside the clipping range they are maximum likelihood. Under separation no converged fit exists. With a saturated discrete covariate the score of a row is the treated share of its stratum, and inverse probability weighting and doubly robust estimates (with overlap) equal the stratified difference in mean changes weighted by the treated shares. The converged point should also minimise the criterion given to the optimizer.", "quantifier": "all data sets, covariates, optimizers, tolerances and iteration limits, all affine recodings, all strata and outcome changes (real arithmetic)", "why_tests_cant": "A test runs one optimizer on a few data sets; that the result depends on neither the optimizer nor the coding, and is exact stratification on discrete covariates, is a statement about all optimizers and data sets, and the flaw of the clipped criterion needs thousands of rows with an extreme outlier.", "anchors": ["/repo/diff_diff/staggered.py _logistic_regression, CallawaySantAnna._ipw_estimation, CallawaySantAnna._doubly_robust", "/repo/diff_diff/triple_diff.py _logistic_regression"]}
{"id": "C127", "title": "TROP joint: results do not depend on the compiled backend", "statement": "TROP(method=\"joint\") reports the same weights, scores, selected tuning parameters and bootstrap standard error whether or not the compiled backend is installed. Both backends weight a cell equally, refuse the same inputs, update the factor matrix equally, and select the same combination when the scores agree; the compiled solver never increases the documented objective and stops only at the Python least-squares fit when a pass changes nothing; the compiled bootstrap resamples whole units within treated and never-treated strata and reports the sample standard deviation of the replicates, missing when it cannot be computed.", "quantifier": "all panels with missing cells, all treatment patterns, weights, tuning grids, subsamples of control cells, resampling draws and panel widths", "why_tests_cant": "A test compares both backends on one small panel with default grids; the fixed number of passes only matters on wide panels, NaN weights need a unit without pre-treatment data, and the step size needs the heaviest cell to be missing.", "anchors": ["/repo/rust/src/trop.rs compute_joint_weights, solve_joint_no_lowrank, solve_joint_with_lowrank, loocv_score_joint, loocv_grid_search_joint, bootstrap_trop_variance_joint", "/repo/diff_diff/trop.py TROP._fit_joint, TROP._compute_joint_weights, TROP._solve_joint_no_lowrank, TROP._solve_joint_with_lowrank, TROP._loocv_score_joint, TROP._bootstrap_variance_joint"]}
{"id": "C128", "title": "Reported result of TripleDifference.fit", "statement": "For data whose group, partition and time columns are 0/1: the fit raises an error exactly when one of the eight cells has no row, or when the regression method with robust errors is used with one row per cell (no covariates); the weighting methods never fail otherwise. Without covariates the reported effect of 'reg' and 'ipw' is the triple difference of the eight reported group means; for the default method this holds when each cell has the same share of rows in both periods. With covariates the regression reports the raw triple difference minus the covariate coefficients times the triple differences of the covariates. The standard errors have closed forms in the eight cell sizes and within-cell variations, and the robust, classical and default ones coincide in balanced data. The test and the interval use max(n-8-k,1) degrees of freedom; they agree about zero. The `cluster` argument gives cluster-robust standard errors. The outcome model of the default method uses the covariates.", "quantifier": "all outcomes, all 0/1 columns with any cell sizes, all covariate matrices, all option values, any number of copies of each row", "why_tests_cant": "a test compares numbers on a few data sets; the closed forms, the set of failing inputs and the irrelevance of the cluster argument are statements about every data set and every option value", "anchors": ["diff_diff/triple_diff.py:TripleDifference.fit", "diff_diff/triple_diff.py:TripleDifference._regression_adjustment", "diff_diff/triple_diff.py:TripleDifference._doubly_robust", "diff_diff/triple_diff.py:TripleDifference._compute_cell_means", "diff_diff/triple_diff.py:triple_difference"]}
{"id": "C129", "title": "Dataset cache: what a load returns over all histories, crash points and schedules", "statement": "Over every history of complete loads and clears, a dataset load returns a text the source served completely, in this call or an earlier one; once a load has returned a text, later unforced loads return that text whatever the network does, until the cache is cleared or a download is forced; the constructed replacement is returned exactly when nothing is cached and the connection fails. With any number of processes loading, forcing and clearing in any interleaving, while the source serves one text and no process is killed, the cache is absent or complete whenever no process is in the middle of writing. Stated as false: that a killed or failing writer leaves a usable cache, that a load during another process's write returns a complete text, and that a load during a clear succeeds or falls back.", "quantifier": "every text, every history of loads and clears, every crash point of a write, every number of processes and every schedule of their steps", "why_tests_cant": "Tests run one process with a mocked or absent network; crash points and interleavings of file operations between processes are not reachable from a unit test.", "anchors": ["diff_diff/datasets.py: _download_with_cache, _get_cache_path, clear_cache, load_card_krueger, load_castle_doctrine, load_divorce_laws, load_mpdta"]}
{"id": "C130", "title": "Dataset loaders: derived columns and constructed replacement data", "statement": "For every downloaded file, the columns the dataset loaders add say what the documentation says: treatment is 1 exactly in New Jersey rows; the year of adoption is the effective year, or the first year a state's indicator is 1; the cohort is the year of adoption; and treatment agrees with 'adopted and not before the year of adoption' exactly when no state repeals. For every random number generator, the replacement data constructed when offline are balanced panels with one row per unit and year, an adoption year fixed within units, treatment on exactly from the adoption year, and rates within their natural bounds; they are the same on every call. The effects built in are: eight per cent of the base homicide rate from adoption on; 0.5, 0.3, 0.1 and 0 on the divorce rate as years pass, 0.02 on participation and -0.5 on suicide; and for the counties -0.04 and -0.03 shrinking by 0.01 a year, or -0.025; each state adopts in the listed year. Stated as false: that `treated` is 0 or 1 in a downloaded Castle Doctrine file, that an offline load leaves the caller's random numbers alone, that constructed state populations lie in the drawn range, that every treated state has a pre-treatment year.", "quantifier": "every downloaded file and every sequence of random numbers", "why_tests_cant": "Tests see one downloaded file or one seed; the claims concern all files a source may serve and every stream of random numbers.", "anchors": ["diff_diff/datasets.py: load_card_krueger, load_castle_doctrine, load_divorce_laws, load_mpdta, load_dataset, list_datasets, _construct_card_krueger_data, _construct_castle_doctrine_data, _construct_divorce_laws_data, _construct_mpdta_data"]}
{"id": "C131", "title": "Power curves tabulate the advertised power, and their plot marks points of the curve", "statement": "For every design: power_curve succeeds exactly when both groups have units; each row holds the power that power() reports for that effect and the same design, in the order asked for; the default table has fifty equally spaced effects from 0 (where the power is alpha) to 2.5 times the minimum detectable effect (the documentation says 3 times, the comment 2 times), and for the two-sided and the 'greater' test its power column never falls and ends at or above the target, while for the 'less' test it never reaches the target. sample_size_curve evaluates two groups of at least two units which together have the size of the row whenever that is possible; a larger size never has less power for an effect in the direction of the alternative; the default sizes are increasing, at most a hundred, and bracket the required size when that is at least five (but need not contain it), while for effects so large that four units suffice the default table is empty and cannot be plotted with a marked effect; sizes below four are evaluated as four, and the split into groups differs from the one sample_size plans. plot_power_curve draws the table in order; with effects in order its marker lies on the drawn line exactly when the marked effect lies in the range; with effects out of order the marker can be off the line; and for simulation results the true effect is drawn as the minimum detectable effect whatever its power.", "quantifier": "all designs (group sizes, periods, correlation, residual deviation), all lists of effects and sizes, all settings and alternatives, all tables handed to the plot", "why_tests_cant": "The tests check the columns, the number of rows and monotone power for a few designs; they cannot cover all designs, and never plot unordered effects, an effect that needs four units, or the alternative 'less'.", "anchors": ["diff_diff/power.py: PowerAnalysis.power_curve, PowerAnalysis.sample_size_curve", "diff_diff/visualization.py: plot_power_curve"]}
{"id": "C132", "title": "What is reported about the power of a pre-trends test: verdicts, convenience functions and plots", "statement": "For every set of pre-period estimates: the comparison with HonestDiD calls the test sensitive, moderate or low-powered exactly as the minimum detectable violation is below one, below two or at least two largest standard errors, and says 'never' exactly when no finite violation reaches the target; is_informative holds exactly for the first two verdicts. The verdict ignores precision: multiplying all standard errors by one number multiplies the violation by it and leaves the verdict unchanged, so uncorrelated estimates of a common precision are always called low-powered (at the usual level and target) however precise they are, and a larger standard error in a pre-period to which the pattern gives no weight turns 'low power' into 'fairly sensitive' at the same minimum detectable violation. compute_pretrends_power and compute_mdv agree with the class for the three built-in patterns; the documented pattern 'custom' is always refused. plot_pretrends_power draws the curve in order and, for magnitudes in order, marks a point of the line exactly when the minimum detectable violation is finite and in range; its target line ignores the target of the curve unless the caller passes it or passes None, so it can contradict the curve's own plot; a single result is drawn without any curve.", "quantifier": "all pre-period estimates and positive definite covariances, all levels and targets, all violation patterns, all curves handed to the plots, all distribution functions with the properties of the non-central chi-square", "why_tests_cant": "Tests check that the dictionary has its keys and that the plots run for one fit; that the verdict never depends on the precision of the estimates is a statement about all covariances, and the mismatch of the target line only shows for curves computed with another target than 0.8.", "anchors": ["diff_diff/pretrends.py: PreTrendsPower.sensitivity_to_honest_did, PreTrendsPowerResults.is_informative, PreTrendsPowerCurve.plot, compute_pretrends_power, compute_mdv", "diff_diff/visualization.py: plot_pretrends_power"]}
{"id": "C133", "title": "The remaining plots and tables show the results they are given", "statement": "For every result: the honest event-study plot can be drawn from any HonestDiD fit and shows, for each requested period in order, its estimate, its standard interval and its own honest interval, with a hollow mark at the reference period; the sensitivity table has one row per M, the plot draws exactly these rows, and the breakdown line has the significant rows on its left and the others on its right; the group-effects plot draws each requested cohort that has effects, in distinguishable colours, with its effects in time order and the intervals the results report; the Bacon scatter plot shows every 2x2 comparison once at (estimate, weight), its dashed lines are the weighted averages of the points of their type, the bars are nonnegative and add up to one, and the contributions printed by the summary add up to the printed weighted sum.", "quantifier": "all honest results, bounds, grids, group-time effects, panels, colour dictionaries and optional arguments", "why_tests_cant": "Plots are tested for returning an axes object on one or two fitted examples; whether what is drawn agrees with the results for every fit, and for which fits the call succeeds at all, ranges over all results.", "anchors": ["diff_diff/visualization.py:plot_group_effects", "diff_diff/visualization.py:plot_sensitivity", "diff_diff/visualization.py:plot_honest_event_study", "diff_diff/visualization.py:plot_bacon", "diff_diff/honest_did.py:SensitivityResults.to_dataframe", "diff_diff/honest_did.py:SensitivityResults.plot", "diff_diff/bacon.py:BaconDecompositionResults.summary"]}
{"id": "C134", "title": "Bootstrap replicates of the joint TROP estimator re-estimate on the histories of the drawn units", "statement": "For every data set with one row per unit and period, every way of printing the unit labels and every random draw, a bootstrap replicate of TROP with method='joint' draws as many treated and never-treated units as the data have, each from its own group; copies of one unit never collide; the periods of the replicate are those in which a drawn unit has a row; and the replicate equals the joint estimate, at the selected tuning parameters, on the histories of the drawn units, whatever order the new labels sort in. The joint estimate does not depend on the order of the units. If a drawn unit is observed in every period, it is the estimate on the very panel the compiled bootstrap resamples for the same draw. The standard error is the sample standard deviation of the replicates kept, with a warning when fewer than ten were. In unbalanced data the number of treated periods should follow the replicate's periods, and every unit used in the fit should be eligible for resampling.", "quantifier": "all row lists with one row per cell, unit and period types, printed labels, draws, tuning parameters, iteration limits and numerical routines meeting their specification", "why_tests_cant": "The draws, label collisions and sort order of string labels range over infinitely many cases; a test with one seed sees a few draws of one panel whose labels happen to sort one way.", "anchors": ["diff_diff/trop.py:TROP._bootstrap_variance_joint", "diff_diff/trop.py:TROP._fit_joint_with_fixed_lambda", "rust/src/trop.rs:bootstrap_trop_variance_joint"]}
{"id": "C135", "title": "The staggered-timing warning of the two-way fixed effects estimator", "statement": "For every data set, TwoWayFixedEffects.fit warns about staggered treatment exactly when two units start treatment in different periods, the number it names is the number of distinct starting periods, and neither depends on the order of the rows. With an absorbing treatment in a balanced panel this is the case exactly when two units adopt at different dates. A treated unit that merely enters the panel late should not be reported as another cohort.", "quantifier": "all row lists with unit and period recorded, any ordered label and period types", "why_tests_cant": "Whether a warning is raised depends on the joint pattern of all units' first treated rows; unit tests try one staggered and one simultaneous design.", "anchors": ["diff_diff/twfe.py:TwoWayFixedEffects._check_staggered_treatment", "diff_diff/twfe.py:TwoWayFixedEffects.fit"]}
{"id": "C136", "title": "Sun-Abraham and Callaway-Sant'Anna give the same numbers on balanced panels", "statement": "The documentation recommends running both estimators as a robustness check and reading agreement as support. On every balanced panel with never-treated units, whatever the outcomes, the two agree by construction: each Sun-Abraham cohort effect is the difference in differences of four cell means (cohort against never-treated, period against the cohort's reference period), which is the group-time effect of Callaway-Sant'Anna with never-treated controls and a universal base period, and with a varying base period from the anticipation window on; event-study effects and numbers of cohorts agree as well, and so do the overall effects without anticipation. (False beyond that: pre-treatment effects under the default varying base, not-yet-treated controls, overall effects with anticipation, and panels with event times beyond 20 periods, where far post-treatment cells are merged into the Sun-Abraham reference period.)", "quantifier": "all balanced panels with cohorts observed in their reference period and event times within 20 periods, all outcomes, both control-group options of Sun-Abraham, all base-period and estimation-method options of Callaway-Sant'Anna, all regression routines returning least squares solutions", "why_tests_cant": "An algebraic identity between a regression and differences of means over all panel sizes; tests compare numbers on a few simulated panels within tolerances and cannot tell an identity from approximate agreement.", "anchors": ["diff_diff/sun_abraham.py:SunAbraham.fit (429-678)", "diff_diff/sun_abraham.py:_fit_saturated_regression (680-791)", "diff_diff/sun_abraham.py:_compute_iw_effects (807-894)", "diff_diff/sun_abraham.py:_compute_overall_att (896-964)", "diff_diff/staggered.py:_compute_att_gt_fast (442-570)", "diff_diff/staggered_aggregation.py:_aggregate_simple (40-98)", "diff_diff/staggered_aggregation.py:_aggregate_event_study (338-436)", "README.md (775, 853-875)"]}
{"id": "C137", "title": "Estimators agree on a balanced design with one treated cohort", "statement": "On every balanced panel with one treated cohort, never-treated units, no covariates and no anticipation, the estimators report one overall effect: DifferenceInDifferences on group and post dummies, the average effect of MultiPeriodDiD, the two-way coefficient and the only comparison of BaconDecomposition (weight one), the overall effects of CallawaySantAnna (any method, base period and control group) and of SunAbraham, and TwoWayFixedEffects.", "quantifier": "all balanced panels with one cohort, any number of units and periods, any outcomes, any least squares routine, reference period, weight option, method, base period and control group", "why_tests_cant": "Equality of six estimators for all outcome values and panel shapes; tests compare single simulated data sets up to a tolerance.", "anchors": ["diff_diff/estimators.py:DifferenceInDifferences.fit", "diff_diff/estimators.py:MultiPeriodDiD.fit", "diff_diff/bacon.py:BaconDecomposition.fit", "diff_diff/staggered.py:CallawaySantAnna.fit", "diff_diff/sun_abraham.py:SunAbraham.fit", "diff_diff/twfe.py:TwoWayFixedEffects.fit"]}
{"id": "C138", "title": "Sentences in the printed reports are true of the numbers beside them", "statement": "For every result: the HonestDiD report says that the effect remains POSITIVE (NEGATIVE) only if every value of the robust interval is, and that zero cannot be ruled out only if zero lies inside; a sensitivity report that says 'robust to violations up to M = v' is right for every smaller M, and 'always significant' for every M; a placebo report that quotes p < 0.05 or p >= 0.05 is right about the printed p-value; a pre-trends report that says violations of magnitude M would be detected, or that violations of m would be needed, is right about the power at those magnitudes.", "quantifier": "all intervals (finite, infinite, missing), methods, M values, grids, placebo tests of every kind with every significance level, pre-trends fits with every pattern and covariance", "why_tests_cant": "The sentences are chosen by comparisons that behave unexpectedly for missing numbers, crossed intervals, grids that stop early and levels other than 5%; tests compare a few printed pages with regular numbers.", "anchors": ["diff_diff/honest_did.py:HonestDiDResults.summary", "diff_diff/honest_did.py:HonestDiDResults.__repr__", "diff_diff/honest_did.py:SensitivityResults.summary", "diff_diff/diagnostics.py:PlaceboTestResults.summary", "diff_diff/pretrends.py:PreTrendsPowerResults.summary"]}
{"id": "C139", "title": "Numbering the periods differently does not change the results of the staggered estimators", "statement": "Adding the same integer to every period and to every first-treatment date (never-treated codes 0 and infinity kept) changes nothing in the results of CallawaySantAnna.fit, SunAbraham.fit and BaconDecomposition.fit except the labels of periods, cohorts and time windows: the same effects are reported with the same values, variances, counts, influence functions, weights, aggregates and event studies, and the same errors are raised, provided every date keeps its sign. Without the proviso the claim is false: a date that becomes 0 silently turns its units into never-treated controls, a negative date drops them.", "quantifier": "all panels (any number of units, any periods, unbalanced, with missing outcomes), all cohort assignments, all configurations (base period, control group, anticipation, method, weights), all regression routines, all shifts", "why_tests_cant": "Tests use one or two numberings (1..T or years); the claim is about every shift of every data set, and the failure only appears for numberings that test data do not use.", "anchors": ["diff_diff/staggered.py: CallawaySantAnna.fit", "diff_diff/staggered_aggregation.py: _aggregate_simple, _aggregate_event_study, _aggregate_by_group", "diff_diff/sun_abraham.py: SunAbraham.fit", "diff_diff/bacon.py: BaconDecomposition.fit"]}
{"id": "C140", "title": "Units and origin of the outcome: staggered estimators", "statement": "Measuring the outcome in other units (factor a, possibly negative) multiplies every effect of CallawaySantAnna, SunAbraham and BaconDecomposition by a and every variance by a squared, leaves weights, counts, labels and errors alone, leaves p-values unchanged and maps confidence intervals into the new units. Adding a constant to all outcomes changes nothing. Adding different constants per unit and per period changes nothing in CallawaySantAnna on any panel, and nothing in SunAbraham and BaconDecomposition on balanced panels (on panels with gaps it does change them).", "quantifier": "all panels including unbalanced ones and missing outcomes, all factors and constants, all configurations, all multiplier draws of the bootstrap", "why_tests_cant": "A test fixes one factor and one data set; the balanced-panel restriction is invisible on balanced test data.", "anchors": ["diff_diff/staggered.py: CallawaySantAnna.fit", "diff_diff/staggered_aggregation.py: _compute_aggregated_se_with_wif", "diff_diff/staggered_bootstrap.py", "diff_diff/sun_abraham.py: SunAbraham.fit", "diff_diff/bacon.py: BaconDecomposition.fit"]}
{"id": "C141", "title": "Callaway-Sant'Anna effects do not depend on later data or on irrelevant units", "statement": "ATT(g,t) depends only on the outcomes in the base period and in t of cohort g and of the units admissible as controls; in particular with never-treated controls changing or deleting data of other treated cohorts changes nothing, and with the varying base period fitting on the data up to T returns exactly the effects up to T of the full fit (values, variances, influence functions), for both control groups. With a universal base period this holds for cohorts whose base period is not after T. With not-yet-treated controls the outcomes of later cohorts do matter.", "quantifier": "all panels, cohorts, periods, truncation points, configurations and all modifications of the data elsewhere", "why_tests_cant": "Independence from other data is a statement about all possible modifications of the data set; a test compares two data sets.", "anchors": ["diff_diff/staggered.py: _compute_att_gt_fast, CallawaySantAnna.fit"]}
{"id": "C142", "title": "Bootstrap replicates of the two-step TROP estimator re-estimate on the histories of the drawn units", "statement": "For every data set with one row per unit and period, every way of printing the unit labels and every random draw, a bootstrap replicate of TROP with method='twostep' is the two-step estimate, at the selected tuning parameters, on the histories of the drawn units, whatever the units are called; no replicate makes fit fail; and no draw is dropped that identifies the effect. The standard error is the sample standard deviation of the replicates kept, with a warning when fewer than ten were. What holds: with lambda_unit = 0, simultaneous adoption and never-treated units named before treated ones the replicate is that estimate; replicates raise exactly when a unit has no observed treatment value and lambda_unit = 0; the standard error is as documented. The rest fails, because weights are stored by column position while the copies are sorted by new text labels.", "quantifier": "all row lists with one row per cell, unit and period types, printed labels, draws, tuning parameters, iteration limits and numerical routines meeting their specification", "why_tests_cant": "Whether a replicate is right depends on how the text labels of the drawn copies happen to sort, on which units are drawn and on missing treatment values: infinitely many cases of which a test with one seed and labels 0..n sees one.", "anchors": ["diff_diff/trop.py:TROP._bootstrap_variance", "diff_diff/trop.py:TROP._fit_with_fixed_lambda", "diff_diff/trop.py:TROP._compute_observation_weights", "rust/src/trop.rs:bootstrap_trop_variance"]}
{"id": "C143", "title": "Ordinary least squares is solved by the same rule on both backends, and that rule is least squares", "statement": "solve_ols returns the same coefficients, residuals, fitted values and covariance (or the same error) whether or not the compiled backend is loaded, for every design, rank deficient and ill-conditioned ones included, and with skip_rank_check=True as well; a result without NaN coefficients is a least-squares fit; the columns reported NaN are exactly those that cannot be separated from the others, so the answer does not depend on the units in which a covariate is measured.", "quantifier": "all designs with n >= k > 0, all outcomes, all singular value decompositions and pivoted QR factorizations the libraries may return, both backends, all options", "why_tests_cant": "The two backends call different SVD routines whose vectors differ in order, sign and basis; agreement and optimality must hold for every factorization and for designs on both sides of two different tolerances (QR and SVD).", "anchors": ["rust/src/linalg.rs:solve_ols", "diff_diff/linalg.py:solve_ols", "diff_diff/linalg.py:_solve_ols_numpy", "diff_diff/linalg.py:_solve_ols_rust", "diff_diff/linalg.py:_detect_rank_deficiency"]}
{"id": "C144", "title": "Callaway-Sant'Anna from the rows of the data: order, labels, repeats, missing outcomes", "statement": "For every data set without covariates: (1) if first_treat is constant within units, CallawaySantAnna.fit returns the same effects, standard errors, aggregates and counts, or raises the same error, for every order of the rows; (2) for every injective renaming of the units, in whatever order the new labels sort, all reported numbers are the same; (3) repeated (unit, period) pairs are rejected; (4) rows without an outcome can be left out as long as every unit and every period keeps a row; (5) the results are those of the wide panel that holds each row's outcome in its unit and period. Not true: row order never matters (a first_treat column that changes within a unit is accepted and the first row decides); a data set that contains a never-treated unit is not rejected for lack of one (the check reads the first row, the estimation the first row with a value).", "quantifier": "all lists of rows, all orders of them, all injective renamings of units, all option values", "why_tests_cant": "tests use a handful of sorted data sets with integer ids; the claims are about every permutation and every renaming, and the failures need a column that changes within units", "anchors": ["diff_diff/staggered.py:CallawaySantAnna.fit", "diff_diff/staggered.py:CallawaySantAnna._precompute_structures", "diff_diff/staggered_aggregation.py:_compute_aggregated_se_with_wif"]}
{"id": "C145", "title": "The order of the rows does not matter", "statement": "Sorting or shuffling the rows of the data frame (every column moved along) changes no reported number of a regression, of DifferenceInDifferences with or without absorbed effects, of TwoWayFixedEffects, of SunAbraham of TripleDifference (all methods, with and without covariates) and of TROP (both methods, with their bootstrap for given draws): effects, standard errors, p-values, intervals, counts, NaN entries and errors are the same; residuals and fitted values move with their rows.", "quantifier": "every data set, every permutation of its rows, both backends of the solver, rank deficient designs, clustered, robust and classical covariances", "why_tests_cant": "tests use one row order; invariance is a statement about all permutations", "anchors": ["diff_diff/linalg.py:solve_ols (338-575), LinearRegression.fit (1107-1212)", "diff_diff/estimators.py:DifferenceInDifferences.fit (249-359)", "diff_diff/twfe.py:TwoWayFixedEffects.fit (57-246)", "diff_diff/sun_abraham.py:SunAbraham.fit (429-678)", "diff_diff/triple_diff.py:TripleDifference.fit (515-637)", "diff_diff/trop.py:TROP.fit (1885-1969)"]}
{"id": "C146", "title": "TwoWayFixedEffects reports the difference in differences with a standard error that reflects both groups", "statement": "On a two-period panel the reported effect is the difference in differences of the mean changes and its clustered standard error reflects the dispersion of the changes of treated and control units; unit and period effects do not matter, units of the outcome scale the report, the names of units, periods and clusters are irrelevant, the degrees of freedom are those of the dummy-variable regression, and an effect that the fixed effects absorb is an error. As long as the treatment term is no combination of the demeaned covariates and the constant, also with redundant covariates: covariates with the same demeaned combinations give the same report, a covariate constant within units or periods changes nothing, covariates are controlled for, and the order of the rows is irrelevant.", "quantifier": "every panel, outcome, covariates, cluster column, number of treated and control units", "why_tests_cant": "closed forms and refusals over all panels; tests compare single data sets with tolerances", "anchors": ["diff_diff/twfe.py:TwoWayFixedEffects.fit (57-246)", "diff_diff/utils.py:within_transform (1406-1484)", "diff_diff/linalg.py:LinearRegression (1107-1343)"]}
{"id": "C147", "title": "TROP compares tuning parameters on one set of held-out cells", "statement": "The cross-validation of TROP (both methods, both backends) scores a candidate on distinct untreated observed cells only: on all of them when there are at most max_loocv_samples, on exactly max_loocv_samples of them otherwise. All candidates of one fit are scored on the same cells, so that the selected parameters are the better ones on the cells looked at; with at most max_loocv_samples cells neither the seed nor the backend affects the choice of cells.", "quantifier": "all panels, missingness patterns, sample sizes, seeds (including none), grids, and all outcomes of the random generators", "why_tests_cant": "Which cells are drawn is random; a test sees one seed, and a comparison of candidates on different cells still returns a member of the grid.", "anchors": ["diff_diff/trop.py:TROP._loocv_score_obs_specific (2638-2750)", "diff_diff/trop.py:TROP._univariate_loocv_search (694-777)", "diff_diff/trop.py:TROP._fit_joint (1408-1450)", "rust/src/trop.rs:get_control_observations (408-437)"]}
{"id": "C148", "title": "MultiPeriodDiD.fit end to end", "statement": "A call of MultiPeriodDiD.fit without covariates and dummies whose post periods (distinct) and at least one pre period contain treated and control rows returns a result exactly if the periods are acceptable, rows outnumber the coefficients and a cluster column, if used, has two values. The rows are counted once, every requested post period gets one effect, and all other periods are pre periods. With equal treated shares in the pre periods the effect of a post period is its treated-control gap minus the pooled pre gap; with outcomes made of group, period and treatment effects it is that treatment effect. The average is the mean of the effects and its standard error the root of the mean of their covariances, never more than the mean of the standard errors. Tests use rows minus coefficients minus absorbed effects degrees of freedom. Neither the choice of the reference period nor the order of the rows changes anything reported. With independent columns, adding to the outcome any combination of the covariates and any functions of the fixed-effect columns, of the period and of the group changes no statistic, and adding effects on treated post rows shifts exactly the reported effects; adding any function of the first absorbed column to outcome or covariates changes nothing. Redundant columns (dummies of every unit beside the group, say) do not matter as long as no effect is a combination of controls: the report then depends on covariates and fixed effects only through what they control for, so that redundant fixed effects, the reference period and the order of rows change nothing, controls added to the outcome change nothing but the R-squared, and exact effects are recovered. With two periods the report is that of DifferenceInDifferences.", "quantifier": "all finite data frames (rows, groups, periods, covariates, fixed, absorbed and cluster columns), all selections of post periods and reference period, all alphas, robust, classical and clustered errors, all reorderings of the rows", "why_tests_cant": "Tests fit a handful of simulated panels with one reference period; independence of reference and row order, the exact condition for a result and the agreement with the two-period estimator concern all data sets.", "anchors": ["diff_diff/estimators.py:MultiPeriodDiD.fit", "diff_diff/estimators.py:DifferenceInDifferences.fit", "diff_diff/linalg.py:solve_ols", "diff_diff/linalg.py:compute_robust_vcov", "diff_diff/utils.py:demean_by_group"]}
{"id": "C149", "title": "BaconDecomposition as a function of the rows of the data", "statement": "The Goodman-Bacon decomposition of a data frame does not depend on the order of its rows or on the labels of the units. Repeating every row k times changes only the reported number of observations. If every unit has one first treatment period and one row per period, the report is that of the wide panel. Data that do not form a panel (two rows for a unit and period) are rejected.", "quantifier": "all finite lists of rows with any units, periods, first treatment periods (missing, zero, negative, infinite) and missing outcomes; both weightings; all permutations, repetitions and one-to-one renamings", "why_tests_cant": "Tests decompose a few simulated panels in one row order; invariance and agreement with the panel concern all row lists, and repeated rows are not tested.", "anchors": ["diff_diff/bacon.py:BaconDecomposition.fit", "diff_diff/bacon.py:BaconDecomposition._compute_twfe", "diff_diff/bacon.py:BaconDecomposition._recompute_exact_weights", "diff_diff/bacon.py:BaconDecomposition._compute_treated_vs_never", "diff_diff/bacon.py:BaconDecomposition._compute_timing_comparison", "diff_diff/utils.py:within_transform"]}
{"id": "C150", "title": "DifferenceInDifferences with covariates, fixed effects and absorbed effects, from the columns of the data", "statement": "A call fails exactly when a used column has missing values, treatment or time is not 0/1 with both values, an absorbed label is missing, there are fewer rows than columns, a strict call has redundant columns, the residual degrees of freedom are exhausted (robust or clustered errors), or there is one cluster. Whenever the interaction is not a combination of the other columns, also if other columns are redundant, the ATT is the interaction coefficient of the least squares fit on constant, treatment, time, covariates and dummies, with the standard error, degrees of freedom and interval of that fit; it equals the difference in differences of the outcome minus coefficient times difference in differences of every control. Adding effects of controls to the outcome does not change it, an exact effect is recovered, order of covariates, of fixed effects and of rows, labels and units of the outcome do not matter. Absorbed effects are swept out one column after the other: a function of the first absorbed column may be added freely, but in unbalanced panels the result is not the fixed effects estimate and depends on the order; missing labels of fixed effects are not rejected but pooled with the smallest label.", "quantifier": "all finite data frames with any number of covariates, fixed, absorbed and cluster columns, missing values anywhere; all alphas and options; every library that solves least squares and drops redundant columns", "why_tests_cant": "Tests run the estimator on simulated data with one or two covariates; failure conditions, redundancy, invariance under controls, relabelling and row order concern all data sets, and the tests never compare absorb with fixed_effects on unbalanced data.", "anchors": ["diff_diff/estimators.py:DifferenceInDifferences.fit", "diff_diff/estimators.py:DifferenceInDifferences._validate_data", "diff_diff/utils.py:validate_binary", "diff_diff/utils.py:demean_by_group", "diff_diff/linalg.py:LinearRegression.fit", "diff_diff/linalg.py:solve_ols"]}
{"id": "C151", "title": "A wild bootstrap fit of DifferenceInDifferences, from the columns to the report", "statement": "DifferenceInDifferences(inference=\"wild_bootstrap\", cluster=...).fit returns a result exactly when the analytical checks pass, the columns are linearly independent, there are more rows than coefficients, the weight type is known, there are at least two clusters and at least one replicate; otherwise it raises. The result has the same ATT, R-squared and counts as the analytical call; its standard error is the standard deviation of the bootstrap coefficients, its interval their percentiles (ordered), its p-value lies between 1/(B+1) and 1. Adding group or period differences, functions of the covariates and fixed effects to the outcome changes none of the inference, an added effect shifts ATT and interval and leaves the standard error; rescaling the outcome rescales ATT, standard error and interval; row order and cluster names do not matter. Without a cluster column the call is the analytical call. (False of the code, with proofs: that a call with a redundant column still works; that data without any effect do not look significant; that a large effect is detected.)", "quantifier": "all outcomes, treatment and period columns, covariates, fixed and absorbed effects, cluster assignments, weight types, numbers and values of the draws, significance levels, least-squares and rank routines meeting their specification", "why_tests_cant": "Tests run one seed and compare standard errors loosely; they cannot show for which inputs the bootstrap runs at all, that the estimate is untouched by the choice of inference, or how the whole report moves under shifts, units, row order and renaming.", "anchors": ["diff_diff/estimators.py:DifferenceInDifferences.fit", "diff_diff/estimators.py:DifferenceInDifferences._run_wild_bootstrap_inference", "diff_diff/utils.py:wild_bootstrap_se"]}
{"id": "C152", "title": "TwoWayFixedEffects with the wild bootstrap", "statement": "TwoWayFixedEffects(inference='wild_bootstrap').fit returns a result exactly if constant, treatment times period and the demeaned covariates are independent, there are more rows than coefficients, the weight type is known, there are at least two clusters (the units if no cluster column is set) and at least one replication. ATT, R-squared and counts are those of the analytical call. The reported standard error, t statistic, p-value and interval are the stated functions of the data and of the drawn cluster weights. Unit and period effects of any size in outcome or covariates (balanced panel), a linear function of the covariates in the outcome (R-squared aside), the order of the rows and the names of the clusters do not matter; other units of the outcome scale ATT, standard error and interval and nothing else; not naming a cluster column is the same as naming the unit column. The p-value lies in [1/(B+1), 1] and the interval is ordered.", "quantifier": "every panel (any rows, units, periods, covariates, outcomes), every cluster column or none, every list of drawn weights, every alpha", "why_tests_cant": "the report depends on draws and on data jointly; tests fix a seed and a panel and cannot separate what the draws do from what the data do", "anchors": ["diff_diff/twfe.py::TwoWayFixedEffects.fit", "diff_diff/estimators.py::DifferenceInDifferences._run_wild_bootstrap_inference", "diff_diff/utils.py::wild_bootstrap_se"]}
{"id": "C153", "title": "Results do not depend on the units of the outcome", "statement": "Multiplying every outcome by c > 0 multiplies effects, standard errors and intervals by c and leaves t statistics, p-values, weights, R-squared, counts, tuning choices and errors unchanged: for LinearRegression (whatever columns are dropped), DifferenceInDifferences and TwoWayFixedEffects (analytical and wild bootstrap inference), TripleDifference (all three methods, with or without covariates), MultiPeriodDiD (any covariates, fixed effects and absorbed columns), SyntheticDiD and TROP with their bootstrap, jackknife and placebo variance. (False of SyntheticDiD with the compiled weights, whose gradient step has a fixed length, and of TROP with given tuning parameters, which are measured in units of the outcome: expressing the outcome in percentage points instead of fractions changes the effect by more than the factor.)", "quantifier": "all data sets, all positive factors, all options of the estimators, all homogeneous least-squares routines and square roots", "why_tests_cant": "Tests fit one scale of the outcome. Equivariance is a relation between two runs for every data set and every factor, and its failures need outcomes of a particular magnitude.", "anchors": ["diff_diff/linalg.py:LinearRegression.fit", "diff_diff/estimators.py:DifferenceInDifferences.fit", "diff_diff/twfe.py:TwoWayFixedEffects.fit", "diff_diff/utils.py:wild_bootstrap_se", "diff_diff/triple_diff.py:TripleDifference.fit", "diff_diff/estimators.py:MultiPeriodDiD.fit", "diff_diff/synthetic_did.py:SyntheticDiD.fit", "diff_diff/utils.py:compute_synthetic_weights", "rust/src/weights.rs:compute_synthetic_weights_internal", "diff_diff/trop.py:TROP.fit"]}
{"id": "C154", "title": "HonestDiD: units of the outcome, sign of the effects, order of the event study", "statement": "For MultiPeriodDiD and CallawaySantAnna results and every M, weight vector and grid: measuring the outcome in other units multiplies estimate, standard error, identified set and robust interval of HonestDiD.fit by the factor and leaves verdicts, breakdown values and errors unchanged (relative magnitudes, and combined restrictions with default weights, for the same M; smoothness for M in the new units); replacing every effect by its negative reflects set and interval at zero, in every row of sensitivity_analysis, and leaves breakdown values unchanged, for every method; the order in which the event study lists its relative times does not matter. (False of breakdown_value under smoothness, which only searches up to M = 10: every effect that survives some positive M is called always significant in small enough units. False of the combined method with other weights, whose one M is both a multiple and a bound in units of the outcome.)", "quantifier": "all results, methods, weight vectors, values of M, grids, factors c > 0, correct linear programming solvers", "why_tests_cant": "Unboundedly many results and units; the fixed search limit shows only for particular units.", "anchors": ["diff_diff/honest_did.py:HonestDiD.fit (1046-1144)", "diff_diff/honest_did.py:HonestDiD.sensitivity_analysis (1285-1336)", "diff_diff/honest_did.py:HonestDiD.breakdown_value (1381-1425)", "diff_diff/honest_did.py:HonestDiD._compute_combined_bounds (1198-1233)"]}
{"id": "C155", "title": "Swapping 0/1 labels turns the effect round and changes nothing else", "statement": "Exchanging the labels 0 and 1 of the treatment column of DifferenceInDifferences.fit, or of its time column, or negating the outcome, gives the same report with ATT, t statistic and confidence interval of opposite sign; standard error, p-value, R squared and number of observations stay, and the two group sizes trade places with the treatment labels. Exchanging both columns leaves the effect as it was, and treatment and time column may trade places. TripleDifference behaves the same way for each of its group, partition and time columns, whatever the estimation method, and so do TwoWayFixedEffects and every period effect and the average of MultiPeriodDiD for their treatment columns. With the wild bootstrap and the same random weights the p-value and standard error stay and the interval is turned round.", "quantifier": "All data sets, numbers of rows, covariates, fixed and absorbed effects, covariance options, rank handling, and for TripleDifference all cell sizes and combinations of exchanged columns.", "why_tests_cant": "A test compares a few data sets before and after recoding; the symmetry is a statement about the span of every design matrix and every residual vector, and it breaks only for rare cell shares or for one method's standard error.", "anchors": ["diff_diff/estimators.py:DifferenceInDifferences.fit", "diff_diff/triple_diff.py:TripleDifference.fit", "diff_diff/triple_diff.py:TripleDifference._doubly_robust", "diff_diff/triple_diff.py:TripleDifference._ipw_estimation", "diff_diff/triple_diff.py:TripleDifference._compute_ipw_se", "diff_diff/linalg.py:LinearRegression.get_inference", "diff_diff/twfe.py:TwoWayFixedEffects.fit", "diff_diff/estimators.py:MultiPeriodDiD.fit", "diff_diff/utils.py:wild_bootstrap_se"]}
{"id": "C156", "title": "Changing the sign of the outcome changes the sign of the effect: SyntheticDiD and TROP", "statement": "For every panel, SyntheticDiD.fit on the outcome multiplied by -1 returns the estimate, t statistic, bootstrap and placebo effects with the opposite sign, the interval mirrored at 0, and the same weights, standard error, p-value, fit, periods and counts, with both backends and both variance methods for the same draws; TROP.fit (twostep) selects the same tuning parameters with the same cross-validation score and returns every cell effect, the average effect, every jackknife and every bootstrap estimate with the opposite sign, also when every operation is rounded by a rule that treats both signs alike.", "quantifier": "All data sets (any number of units and periods, missing outcomes), settings, grids, subsamples of cells, draws, seeds, iteration limits and tolerances; exact arithmetic, arithmetic with infinities and NaN, and any rounding that commutes with the sign.", "why_tests_cant": "A test compares two runs on one panel up to a tolerance; iterative routines with early stopping, projections and cross-validated choices could break the symmetry on panels that no test contains.", "anchors": ["diff_diff/synthetic_did.py:SyntheticDiD.fit", "diff_diff/utils.py:compute_synthetic_weights", "diff_diff/utils.py:compute_time_weights", "rust/src/weights.rs:compute_synthetic_weights_internal", "diff_diff/trop.py:TROP.fit", "diff_diff/trop.py:TROP._soft_threshold_svd"]}
{"id": "C157", "title": "The low-rank step of TROP is well defined and solves its penalised problem", "statement": "The matrix returned by singular value soft-thresholding does not depend on which singular value decomposition the library returns, so NumPy and the compiled backend agree on matrices with finite entries; it commutes with orthogonal transformations, reordering of rows and columns, transposition, change of sign and change of units; with the cut-off 0 it is the unique minimiser of half the squared distance plus the threshold times the nuclear norm, and the cut-off of 1e-10 moves it by no more than 1e-10 times the square root of the number of singular values.", "quantifier": "All real matrices of any shape, all thresholds, all decompositions that satisfy the defining equations (any signs and rotations of singular vectors, any order).", "why_tests_cant": "Singular vectors are not unique (signs, repeated singular values), so a test sees only the choice of one library on the matrices tried; minimality is a statement about all competing matrices.", "anchors": ["diff_diff/trop.py:TROP._soft_threshold_svd", "rust/src/trop.rs:soft_threshold_svd"]}
{"id": "C158", "title": "TROP's alternating fit never raises its penalised objective, and a resting point is a global minimum", "statement": "With nonnegative cell weights and a positive nuclear-norm penalty, each outer iteration of the alternating fit (unit effects, period effects, low-rank part) leaves the penalised weighted least-squares objective no larger than before, whatever the current fit, up to a stated allowance for singular values cut off at 1e-10; so the returned fit is never worse than the fit by zeros. If an outer iteration returns the fit it was given, that fit minimises the objective over all unit effects, period effects and low-rank parts. For the joint method, an iteration limit above the weighted squares of any fit without low-rank part divided by the squared tolerance has no effect: the loop has stopped by its convergence test. The objective is the documented one.", "quantifier": "for every panel, weight matrix, penalty, starting fit, iteration limit, tolerance and singular value routine", "why_tests_cant": "a test compares one panel's objective before and after; descent and global optimality are statements over all panels and over all competing fits, an infinite-dimensional family no run enumerates", "anchors": ["diff_diff/trop.py:TROP._estimate_model", "diff_diff/trop.py:TROP._weighted_nuclear_norm_solve", "rust/src/trop.rs:estimate_model"]}
{"id": "C159", "title": "HonestDiD's sensitivity table is the table of its fits", "statement": "For every grid of M: each row of sensitivity_analysis is the identified set and robust interval that HonestDiD.fit returns for that M, in the order of the grid; the default grids start at 0 and increase (to 2 for relative magnitudes, to 1 otherwise); the analysis fails exactly when one of those fits fails, with its error, and whether a fit fails does not depend on M; original estimate and standard error are those of any fit. The breakdown value is None exactly when no row includes zero, 0 when the first row does, and otherwise the midpoint of two values 2^-20 of the grid step apart, inside the first bracketing pair of rows, at which the interval excludes and includes zero; under relative magnitudes a row including zero is followed only by such rows; with one threshold the value agrees with breakdown_value up to the two tolerances.", "quantifier": "for every method, event study result, weight vector, grid (sorted or not), tolerance and linear programming routine", "why_tests_cant": "grids and results are arbitrary; a test sees one table, and the bracketing claim is about all significance profiles, including non-monotone ones", "anchors": ["diff_diff/honest_did.py:HonestDiD.sensitivity_analysis", "diff_diff/honest_did.py:HonestDiD._find_breakdown", "diff_diff/honest_did.py:HonestDiD.fit", "diff_diff/honest_did.py:HonestDiD.breakdown_value"]}
{"id": "C160", "title": "Synthetic-control weights of the NumPy backend are near-optimal with a stated rate", "statement": "Without the compiled backend, the weights that compute_synthetic_weights finds before dropping small ones fit the pre-periods (penalised squared error) within 1/(step*limit) of every other probability weights, or within 3*tolerance/step when the search stopped by its convergence test, where step is the inverse of the largest curvature. With a positive penalty the best weights are unique and the squared distance of the found weights from them is at most that gap divided by the penalty. Once the iteration limit exceeds step*(fit of equal weights)/tolerance^2, raising it does not change the returned weights.", "quantifier": "for every number of pre-periods and controls, outcome matrix, treated path, non-negative penalty, admissible step, tolerance, iteration limit and competing weights", "why_tests_cant": "a test compares one data set with one reference optimum; the rate is about all data and all limits", "anchors": ["diff_diff/utils.py:_compute_synthetic_weights_numpy", "diff_diff/utils.py:compute_synthetic_weights", "diff_diff/utils.py:_project_simplex"]}

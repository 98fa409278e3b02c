# Formal model of diff-diff: design

Properties are listed in `properties.jsonl` (C01...). The Lean project is in `lean/`; the
status of each property and the exact theorem names are in `MANIFEST.json`; the mutation
log is `seeded/LOG.jsonl`.

## 1. Modelling conventions

* **Arithmetic.** Floating point is replaced by exact arithmetic in an ordered field `K`
  (instantiated by `ℚ` in examples, `ℝ` where square roots occur). Rounding, overflow and
  `-0.0` are not modelled. `NaN` is modelled explicitly (`Option K`, `none` = NaN) in the
  definitions where NaN propagation decides behaviour; comparisons with NaN are false, as
  in IEEE 754. Where infinities matter (`Verif/Ext.lean`) a float is NaN, an infinity or an
  element of `K`, with the IEEE rules for the exceptional values. The TROP loops are written
  over an abstract record of operations (`TropFit.Ops`) so that the same text runs on `K` and
  on `Ext K`.
* **Arrays / data frames.** A numpy vector is a `List K` (executable definitions) or a
  function on a finite index type (linear algebra); a data frame is a list of rows or a
  family indexed by rows; a pandas `groupby` is a filter by key.
* **Exceptions** are values (`Except String α` or an inductive outcome type).
* **Mutable estimator objects** are structures; methods are functions returning the new
  structure.
* **Loops** are folds, structural recursion, or recursion with a fuel argument equal to the
  loop bound in the code.
* **External numerics** (QR/SVD/lstsq, t and normal and non-central chi-square
  distribution functions, scipy `brentq`/`linprog`, random number generators) are
  parameters; what is assumed about them is a hypothesis of the theorem that needs it, and
  is listed in section 5.

Each definition carries a comment citing file and lines in `/repo`, and says where it is
simplified.

When a property in `properties.jsonl` is *false* of the code, the Lean development
contains (a) a theorem with suffix `_refuted` proving the negation on a concrete witness or
for a whole class of inputs, and (b) a theorem with suffix `_partial` for the part that
does hold. Such properties have status `partial` in the manifest and are listed in section 6.

## 2. Trusted base

* Lean 4.33.0 kernel, and Mathlib at the installed version (as definitions; every lemma is
  kernel checked).
* Axioms: at most `propext`, `Classical.choice`, `Quot.sound` (checked with
  `#print axioms`; per-theorem output is listed in section 7). No `sorry`, no
  `native_decide`, no `bv_decide`, no added axioms.
* The faithfulness of the model to the Python/Rust text, established by reading only: the
  code was never run.
* The modelling conventions of section 1.

## 3. Plan per property

| Id | Property | Modules | How it is modelled and proved | Status |
|----|----|----|----|----|
| C01 | Simplex projection returns a probability vector | SimplexProps | `_project_simplex` and the Rust loop as list programs; threshold lemma over sorted lists | proved |
| C02 | Simplex projection is the Euclidean nearest point | SimplexProps | optimality of the projection through the variational inequality | proved |
| C03 | Python and Rust simplex projections agree | SimplexProps | both programs select the last index with the positivity condition | proved |
| C04 | Synthetic unit weights are a probability vector for every stopping point | SynthWeightsProps | the projected-gradient loop with fuel and early stop; invariant "is a probability vector" by induction over fuel | proved |
| C05 | Time weights are a probability vector | SynthWeightsProps | final clamp and renormalisation; optimum for large penalty | proved |
| C06 | SDID estimate recovers a constant effect in an additive model | SdidProps | `compute_sdid_estimator` as finite sums; algebra | proved |
| C07 | Group demeaning removes exactly the group means | WithinProps | groupby means over a finite row type; within transform on balanced panels | proved |
| C08 | Two-way within transform absorbs unit and time effects | WithinProps | within transform removes fixed effects (balanced); counterexamples on unbalanced panels | partial |
| C09 | TwoWayFixedEffects returns the two-way fixed effects coefficient | WithinProps | TWFE as regression on [1, D] with demeaned outcome; Frisch-Waugh-Lovell; exact attenuation factor | partial |
| C10 | Basic DiD coefficient equals the difference of cell-mean differences | Did2x2Props | normal equations of the saturated design imply cell-mean differences | proved |
| C11 | Least squares residuals are orthogonal and fitted values optimal | OlsProps | normal equations iff minimality | proved |
| C12 | NaN is reported for exactly the dropped columns | OlsProps | NaN expansion of dropped columns as list functions | proved |
| C13 | solve_ols validates before computing and honours rank_deficient_action | OlsProps | validation and dispatch as a decision function over abstract numerics | partial |
| C14 | Robust covariance is symmetric PSD and independent of cluster labels and row order | VcovProps | sandwich as matrices, sums over clusters | proved |
| C15 | R-squared bounds | VcovProps | positive semidefiniteness through a Gram form | proved |
| C16 | Inference fields are mutually consistent | InferenceProps, SdidProps | p-value and interval with an abstract symmetric distribution function | proved |
| C17 | Degenerate standard errors never look significant | InferenceProps | decision logic of each estimator for degenerate standard errors | partial |
| C18 | set_params / get_params round trip | ParamsProps | estimator objects as finite maps plus fit state; induction over call histories | proved |
| C19 | A rejected set_params leaves the estimator unchanged | ParamsProps | `set_params` as a loop over keyword pairs | partial |
| C20 | Refitting reports the inference method of the current fit | ParamsProps | induction over histories of fits | partial |
| C21 | Formula parsing | FormulaProps | list-of-characters model of the parser | partial |
| C22 | Callaway-Sant'Anna base period selection | CSProps | base period selection, masks and ATT(g,t) over finite rows | proved |
| C23 | Callaway-Sant'Anna control group contains no treated or own-cohort units | CSProps | control masks; set equalities; counterexample with anticipation | partial |
| C24 | ATT(g,t) without covariates identifies the effect under parallel trends | CSAggProps, CSProps | identification under additive untreated outcomes by algebra | proved |
| C25 | Aggregations are convex combinations of the right ATT(g,t) | CSAggProps | aggregation as weighted sums with weights summing to one | proved |
| C26 | Influence functions are centred and the multiplier bootstrap is a perturbation of the estimate | CSAggProps | influence functions, linearity, variances | partial |
| C27 | Bootstrap p-values and percentile intervals are well formed | BootStatsProps | bootstrap statistics as functions of the replicate list | partial |
| C28 | Bootstrap multiplier distributions have mean 0 and variance 1 | BootWeightsProps | exact moments of the weight tables; product measure | proved |
| C29 | Rust bootstrap weights do not depend on the thread schedule | BootWeightsProps | schedules as arbitrary interleavings of row writes; commuting writes | proved |
| C30 | Never-treated units may be coded 0 or infinity interchangeably | BaconProps, CSRecodeProps, SunAbProps | recoding maps on labels; invariance of every stage | partial |
| C31 | Bacon weights are non-negative, sum to one and split by type | BaconProps | comparison list and weights; normalisation | proved |
| C32 | Bacon decomposition reproduces the TWFE coefficient | BaconTwfeProps | Goodman-Bacon identity on balanced panels; the code's weights as a counterexample | partial |
| C33 | Timing comparisons use only the intended windows | BaconProps, BaconTwfeProps | windows and identification of each comparison | proved |
| C34 | Sun-Abraham interaction weights are convex per event time | SunAbIdProps, SunAbProps | interaction weights; identification from a saturated regression | proved |
| C35 | Sun-Abraham bootstrap resamples whole units | SunAbProps | selection by label against selection by position | partial |
| C36 | Triple difference without covariates equals the difference of DiDs for all methods | TripleDiffProps | eight cells; normal equations; IPW and DR formulas | partial |
| C37 | Triple difference doubly robust estimator uses the outcome model | TripleDiffProps | doubly robust formula with arbitrary nuisances; counterexample | partial |
| C38 | Triple difference input validation is exact | TripleDiffProps | validation as a decision function, exact acceptance set | proved |
| C39 | Relative-magnitude bounds of HonestDiD | HonestDidProps | relative-magnitude set as a range; monotonicity | partial |
| C40 | Smoothness bounds of HonestDiD are informative | HonestSdProps | smoothness set as the feasible points of the linear program | partial |
| C41 | Breakdown value is located to tolerance | HonestDidProps | bisection with fuel; threshold in closed form | proved |
| C42 | HonestDiD uses the covariance of the coefficients it analyses | HonestDidProps | extraction of estimates and covariance from results objects | partial |
| C43 | Pre-trends violation weights are unit vectors and MDV is consistent | PretrendsProps, PretrendsReportProps | weights, power curve and search for the minimum detectable violation | partial |
| C44 | Power analysis is self consistent | PowerProps | variance, effect and sample-size formulas with abstract normal cdf | partial |
| C45 | Permutation test p-values | DiagnosticsProps, PermValidProps | permutation p-value as a count; group-invariance argument for validity | partial |
| C46 | Placebo timing test only uses pre-treatment data | DiagnosticsProps | placebo timing as a filter; dependence argument | proved |
| C47 | balance_panel('inner') keeps exactly the complete units | PrepProps | balancing as filters on row lists | partial |
| C48 | balance_panel('outer'/'fill') covers the full grid without inventing or losing data | PrepProps | filling as a grid join | proved |
| C49 | wide_to_long is lossless | PrepProps | reshape as flatMap; inverse | partial |
| C50 | rank_control_units keeps required units and is top-k optimal | PrepRankProps, PrepRankScoresProps | ranking: insertion sort, exclusion and requirement lists | partial |
| C51 | validate_did_data accepts only estimable designs | PrepValidateProps | validation as an error accumulator, exact characterisation | partial |
| C52 | Significance stars agree with is_significant | ResultsProps | comparisons with NaN as Booleans | proved |
| C53 | summary(alpha) prints an interval at the printed level | DiagnosticsProps, ResultsProps | printed level as a function of alpha | partial |
| C54 | TROP absorbing-state validation | TropProps, TropTightProps | validation over row lists, exact acceptance set | proved |
| C55 | TROP tuning search returns a grid minimiser and never gets worse | TropProps | grid search as folds; fixed points of cyclic search | proved |
| C56 | TROP infinity parameters mean 'disabled' | TropProps, TropShiftProps, TropTightProps | infinity conversion commutes with the loops | partial |
| C57 | TROP variance estimation recomputes weights from the resampled data | TropBoot2Props, TropShiftProps | replicates computed from cached arrays, compared with recomputation | partial |
| C58 | Backend selection | BackendProps | import and environment variable as a decision function | proved |
| C59 | MultiPeriodDiD average effect and NaN propagation | MultiPeriodProps | average effect and its variance as a quadratic form | proved |
| C60 | Wild cluster bootstrap imposes the null | WildBootProps | bootstrap data generation and centring | partial |
| C61 | Synthetic weights fit at least as well as equal weights | SynthWeightsProps | descent inequality for projected gradient steps with the guaranteed step size | proved |
| C62 | Choice of backend does not change synthetic weights | SynthWeightsProps | fixed-step loop of the compiled backend; cycle proved by induction over the budget | partial |
| C63 | SyntheticDiD bootstrap p-value responds to the effect | SdidProps | placebo p-value as a count | partial |
| C64 | absorb= recovers the treatment effect and agrees with fixed_effects= | Did2x2Props | absorb versus dummies; small unbalanced witness | partial |
| C65 | Every accepted full-rank design gets a variance matrix or a documented error | VcovProps | degrees of freedom decision logic | partial |
| C66 | Both backends return the same robust variance matrix | RobustVcovProps, VcovProps | grouping of missing cluster identifiers in both paths; RobustVcov.lean models the public function with its exceptions, outcomes classified by the data (collinear columns, one cluster, no degrees of freedom) | partial |
| C67 | The df argument of get_inference selects the documented distribution | InferenceProps | keyword handling with a sentinel | partial |
| C68 | A TROP confidence interval and p-value never contradict each other | InferenceProps | p-value and interval from different distributions | partial |
| C69 | set_params accepts only documented parameters | ParamsProps | attribute lookup in `set_params` | partial |
| C70 | set_params and the constructor are interchangeable | ParamsProps | constructor round trip | partial |
| C71 | Covariate-adjusted Callaway-Sant'Anna estimators identify the effect and are doubly robust | CSRecodeProps | influence functions of the covariate estimators with arbitrary fitted nuisances | partial |
| C72 | Bootstrap p-value and percentile interval agree about zero | BootStatsProps | p-value, interval and replicate list | partial |
| C73 | Sun-Abraham bootstrap inference reflects only estimable replicates | SunAbProps | replicates in which every draw fails | partial |
| C74 | Sun-Abraham control group option | SunAbProps | option never read: equality of results | proved |
| C75 | Triple difference standard errors do not depend on the level of the outcome | TripleDiffProps | covariate shifts in the three triple-difference estimators | partial |
| C76 | Multi-period effects are treated-control gaps net of the pooled pre-period gap | MultiPeriodProps | period layout and the saturated regression | proved |
| C77 | HonestDiD verdicts never overstate robustness | HonestDidProps | result flags of HonestDiD | partial |
| C78 | Pre-trends power analysis accepts every event study with pre-treatment periods | PretrendsProps | extraction chain from fit to sensitivity | partial |
| C79 | Design variance used for power is the variance of the estimator | PowerProps | power of panels with several periods | partial |
| C80 | run_all_placebo_tests runs every test | DiagnosticsProps | `run_all_placebo_tests` as a list of optional results | partial |
| C81 | The fake-group placebo test uses only never-treated data | DiagnosticsProps | row filter of the fake-group test | partial |
| C82 | Leave-one-out effects and their precision | DiagnosticsProps | leave-one-out refits | partial |
| C83 | Indicator columns follow exactly the stated rule | PrepProps | treatment indicator from dates | partial |
| C84 | Event time is periods since treatment, missing for the never treated | PrepProps | cohort coding | proved |
| C85 | The summary table's DiD line is the estimate | PrepProps | summary line against the least-squares coefficient | proved |
| C86 | aggregate_to_cohorts is a faithful aggregation | PrepProps | distinct counts | proved |
| C87 | rank_control_units suggests treatment candidates when no treatment is given | PrepRankProps, PrepRankScoresProps | candidate scores and selection | partial |
| C88 | Result exports carry the stored numbers | ResultsProps | dictionaries as association lists, tables as row lists | partial |
| C89 | Synthetic DiD summary shows the largest weights | ResultsProps | weight table: sort, prefix, remainder | proved |
| C90 | TROP counterfactuals do not use treated outcomes | TropFitProps | cell masks multiply by zero; `Ext` arithmetic with an absorption lemma | proved |
| C91 | TROP estimates do not depend on the origin of the outcome | TropShiftProps | shift invariance by a simulation relation between the two runs of the loop | partial |
| C92 | TROP: missing outcomes and missing treatment | TropShiftProps | missingness as `Option`; exact condition | partial |
| C93 | TROP weights have the documented shape | TropFitProps | monotone exponential | proved |
| C94 | TROP alternating minimisation decreases its objective | TropShiftProps | block minimisation, convexity | proved |
| C95 | TROP recovers effects exactly when untreated outcomes are unit levels | TropShiftProps | fixed point of the sweep | proved |
| C96 | TROP joint method solves the documented weighted least squares problem | TropJointExtraProps, TropJointProps | weighted least squares as an ordinary least-squares call; the assumed property of `lstsq` is that it minimises | proved |
| C97 | TROP joint method recovers a constant effect exactly | TropJointProps | uniqueness of fitted values on cells of positive weight; a 2x2 rectangle identifies the effect | proved |
| C98 | TROP joint estimates do not depend on the origin of the outcome | TropJointCaseProps, TropJointShiftProps | simulation relation between two runs (fitted values differ by the shift) | partial |
| C99 | TROP joint tuning is a global grid minimum | TropJointCaseProps, TropJointMoreProps | grid search as a fold; first minimiser | proved |
| C100 | TROP joint method accepts exactly simultaneous adoption | TropJointCaseProps, TropJointMoreProps | first treated period per unit; exact acceptance set | partial |
| C101 | TROP joint weights have the documented shape | TropJointMoreProps | monotone exponential; explicit reference point | partial |
| C102 | TROP joint jackknife leaves the unit out | TropJointCaseProps, TropJointMoreProps | dependence argument: weights of the left-out unit are zero | proved |
| C103 | Leave-one-out predictions do not use the held-out outcome | TropJointCaseProps | dependence argument; for the joint method an explicit optimum as a function of the weight | partial |
| C104 | TROP results do not depend on the backend | TropPermProps, TropRustProps | compiled search and estimation modelled separately from the Python ones; equality of searches by induction over cycles, equality of fits by an invariant over sweeps (weights differ by a positive constant, factors vanish, effects bounded); disagreement by a three-by-three panel with an invariant region for all iteration counts | partial |
| C105 | TROP without a nuclear norm penalty | TropTightProps | after one sweep the residuals of weighted cells are absorbed by the factor matrix, so the sweep is a fixed point; recovery refuted on a parallel panel for all iteration limits | partial |
| C106 | Simulated power is the rejection share among usable simulations | SimPowerProps | `SimPower`: data generator and estimator are an arbitrary function from the position in the random stream and the effect size to one of three outcomes; the loop over effect sizes is characterised by induction (`evalAll_ok`), counts by `Finset` cardinalities of an attribute-based predicate stated without the model's extraction function. | proved |
| C107 | Coverage, bias and rmse of simulated power | SimPowerProps | Same model; estimates of usable simulations as a `Finset` sum, decomposition of the mean squared error, comparison of the n and n-1 denominators. | partial |
| C108 | TROP results do not depend on the order of the units | TropPermProps | `TropPermProps`: a simulation relation between the fits of a panel and of the panel with rearranged columns, kept by every update (induction over inner and outer loop), for any arithmetic whose sums and maxima can be rearranged; instances for exact and float-like arithmetic; the same relation for the compiled model, and index rearrangements extracted from list permutations for bootstrap draws. | proved |
| C109 | check_parallel_trends compares least-squares trends over the pre-treatment periods | TrendsProps | `Trends`, `TrendsProps`: centred sums of squares and products over an arbitrary list; the residual sum of squares of any line equals the smallest one plus a non-negative form (`sse_min`), which gives existence and uniqueness of the best line; sums grouped by period for the parallel-means claim. | partial |
| C110 | The equivalence test certifies a small difference in trends | TrendsChangeProps, TrendsEquivProps, TrendsRobustProps | `TrendsEquivProps`, `TrendsChangeProps`: the test on two lists of changes, with square root and t distribution as parameters; Cauchy-type bounds for the degrees of freedom; decomposition of the pooled variance; changes of transformed rows by induction over the sorted rows; telescoping sums. | proved |
| C111 | The distributional pre-trend test | TrendsRobustProps | `TrendsRobustProps`: distance as a parameter with six properties, all proved for the area between the two empirical distribution functions (summation by parts over the merged sorted sample). | proved |
| C112 | Generated data sets are complete and consistent with their recorded true effects | DgpProps | `Dgp`, `DgpProps`: generators as maps over the list of (unit, period) pairs with the random draws as an arbitrary function of the position in the stream; row-by-row comparison of two calls. | proved |
| C113 | Two-group generators deliver the requested effect to the 2x2 estimator | DgpDidProps, DgpEventProps | `DgpDidProps`, `DgpEventProps`: sums over the grid split by group and period (`did_grid`); combined with the cell-mean form of the estimator (C10) and the shift law of the pre-trend check (C109). | proved |
| C114 | Event-study data deliver the requested effect in every post period | DgpEventProps | `DgpEventProps`: the event-study regression on the generated panel reduced to period gaps by the normal equations (C76). | proved |
| C115 | Staggered data deliver the requested effects to CallawaySantAnna | DgpStagProps | `DgpStagProps`: the panel the estimator builds from the rows; each ATT(g,t) is linear in the outcomes and the unit and period effects cancel. | proved |
| C116 | Triple-difference data deliver the requested effect by all three methods | DgpDddProps | `DgpDddProps`: counting rows per cell; outcomes that are a function of the cell plus a rest (`ddd_split`); combined with C36; uniqueness of least squares for the covariate case. | proved |
| C117 | What SyntheticDiD reports on factor data | DgpFactorProps | `DgpFactorProps`: the estimator is linear in the outcomes for fixed weights and multiplicative on a rank-one matrix (`sdid_rank_one`); weights from C04 and C05. | proved |
| C118 | Callaway-Sant'Anna bootstrap inference refers to the reported effects | CSBootProps | Positions in `gt_pairs` are traced back to the pairs themselves, so the draws of an aggregate are its reported value plus the multipliers times its aggregated influence function (from C26_draw_linear); balancing, sorting and grouping are shown to select the same pairs as the point estimates. Shift invariance reduces to C24 through a normal form of the entries. Percentiles and p-values of constant draws are computed for every number of draws. | proved |
| C119 | SyntheticDiD: accepted data, sample and row order | SdidFitProps, SdidReportProps | `SdidFit` models the checks of fit in order, the split of periods and units and the outcome matrices; acceptance as an equivalence with an explicit predicate on the rows, row order via permutation lemmas for each component. | partial |
| C120 | SyntheticDiD: transformations of the data and order of units | SdidShiftProps, SdidVarProps | `SdidShiftProps`: `attOn` expanded into named weights; projected gradient steps of both backends shown invariant under period shifts and equivariant under permutations (via uniqueness of the simplex projection), lifted through the loops by induction on the iteration count; counterexample for unit effects computed for every iteration count via a fixed point. | partial |
| C121 | SyntheticDiD: bootstrap and placebo standard errors | SdidVarProps | `SdidVarProps`: labels of sampled units removed by a relabelling lemma, so a draw is the estimator on the sampled multiset; the rest follows from C120 and properties of the sample variance. | partial |
| C122 | SyntheticDiD with covariates: what adjustment removes and what it costs | SdidCovProps | Verif/SdidCov.lean models the residualisation as a regression on intercept, covariates, unit and period dummies with an arbitrary least-squares solver. Uniqueness of fitted values (convexity) gives invariance; linearity of the double difference in the working outcomes gives the bias formula; explicit coefficient vectors with orthogonal residuals give the two counterexamples. | proved |
| C123 | The event study plot shows the estimates of the results | PlotProps | Dictionary lookup lemmas (last pair wins, unique under distinct keys); the loop as filterMap; positions as indices of a duplicate-free list; sortedness of default periods for the shaded range. Refuted readings by witnesses: drawn interval versus reported interval, fallback to -1 without a marker, repeated periods, unknown reference. | partial |
| C124 | A regression does not depend on how the regressors are parametrized | LinRegPair, LinRegProps, LinRegRank, LinRegSpan | LinReg.lean models LinearRegression.fit (numpy path) over any solver returning a least-squares solution. The Gram matrix, both meats and the sandwich are shown to transform by congruence under X -> X A, which gives the change of every output; unit changes of one regressor or of the outcome are special cases. The IndexError on an all-zero design is recorded as a refutation. LinRegRank.lean, LinRegSpan.lean and LinRegPair.lean: designs with redundant columns through the unique isolating weights, designs with the same span, covariances of pairs. | proved |
| C125 | The DiD standard errors are those of a difference of four cell means | DidFitProps | DidFit.lean models DifferenceInDifferences.fit end to end. For any coefficient, the row weights h = X v with X'h = e_j isolate the coefficient; the three variances are rewritten through h, and for the saturated 2x2 design h is plus or minus 1/(cell size). Panels: rows are unit x period, the sums inside a unit collapse to deviations of changes. The absorb variance is proved to be exactly half of that with unit dummies (refutation). | partial |
| C126 | Propensity scores are maximum likelihood, independent of coding and optimizer; on discrete covariates they stratify | LogitProps | Logit.lean models the criterion, its gradient and the prediction over the reals with the optimizer as a parameter. Uniqueness of scores: the inner product of index and score differences vanishes and is a sum of non-negative terms by monotonicity of the clipped logistic function. Maximum likelihood from the tangent inequality of log(1+exp). Strata: stationarity along the stratum indicator, then the odds of a stratum and a fibrewise sum give the stratified estimate. Refutation: 2m ordinary rows and two outliers make the clipped criterion lower far away. | partial |
| C127 | TROP joint: results do not depend on the compiled backend | TropJointExtraProps, TropJointRustBootProps, TropJointRustCaseProps, TropJointRustFloatProps, TropJointRustProps | TropJointRust.lean models the compiled weights, coordinate descent, factor updates, score, search and bootstrap, generic over exact numbers and floats with NaN and infinities. Each coordinate update is a weighted mean, so a pass never increases the objective; a pass that changes nothing satisfies the normal equations, hence is the Python fit. Float runs on finite weights are shown to be exact runs. Refutations: an invariant of the passes on a panel with n + 1 units keeps the fit within a factor (1 - 1/(3n+1))^51 of the start; NaN spreads from one weight to every score; the step size uses missing cells; zero standard error without replicates. | partial |
| C128 | Reported result of TripleDifference.fit | TripleFitProps | Verif/TripleFit.lean models fit with the three methods on top of TripleDiff and LinReg. The coefficient on the triple interaction is isolated by row weights ±1/n_cell, which gives the robust, classical and clustered variances of the saturated regression in terms of the cells. The cluster claim is refuted on data in which each row is present r times; the agreement of test and interval is refuted with one row per cell; the use of covariates in the outcome model is refuted for rank_deficient_action="error" (the time column is constant in each cell). | partial |
| C129 | Dataset cache: what a load returns over all histories, crash points and schedules | DatasetCacheProps | Model: the cached file as directory entry plus contents, `_download_with_cache` both as one uninterrupted call and as a small-step program of many processes (one character per write step, crash, full disk, clear). Proof: induction on histories for the sequential part; the small-step program run alone refines the uninterrupted call; an invariant per file (every wrong character will still be overwritten, some writer is not past the end) for all schedules. Negations: truncated cache after a crash or a failed write, torn read during a write, missing-file error during a clear. | proved |
| C130 | Dataset loaders: derived columns and constructed replacement data | DatasetsEffects, DatasetsProps | Model: the loaders as functions on typed optional columns, the constructors as loops over an arbitrary generator with hidden state. Proof: case analysis for derived columns, Finset minimum for the adoption year, induction over the generating loops for the constructed panels, one generator state per unit for the built-in effects (DatasetsEffects.lean). Negations: fractional `cdl`, reseeding of the global generator, calendar year instead of elapsed years in populations, Delaware treated throughout. | proved |
| C131 | Power curves tabulate the advertised power, and their plot marks points of the curve | PowerCurveProps | Model the two tables and the plot (Verif/PowerCurve.lean) on top of Verif/Power.lean, with numpy's linear interpolation transcribed; rows are characterised by the existing `power`, monotonicity follows from C44, the default sizes by arithmetic on Python's range, the marker by a specification of the broken line (a point of a segment between consecutive points); the wrong range, the empty table, the sizes below four, the different split, unordered effects and the mislabelled true effect are proved as negations. | proved |
| C132 | What is reported about the power of a pre-trends test: verdicts, convenience functions and plots | PretrendsReportProps | Model the verdict, the convenience functions and the two plots (Verif/PretrendsReport.lean) on top of the pre-trends model; scaling of the inverse covariance gives the invariance of the verdict, a diagonal covariance gives the constant verdict, and the marker uses the interpolation lemmas of C131; precision, noise, pattern 'custom', target line and single result are proved as negations. | proved |
| C133 | The remaining plots and tables show the results they are given | PlotMoreProps | `PlotMore`: what is handed to matplotlib, including its rejection of negative error bars; success of the honest plot characterised by membership of every estimate in the scalar interval, with end-to-end witnesses that fits cannot be plotted; the breakdown line by induction over the grid search; Bacon plots by the partition of the comparisons and C31 | partial |
| C134 | Bootstrap replicates of the joint TROP estimator re-estimate on the histories of the drawn units | TropBootPermProps, TropBootProps | Row-level model of resampling, relabelling and pivoting (TropBoot); labels are decoded from the right; units of a replicate are a permutation of the draw; invariance of the weighted least squares fit and of the factor iterations under column permutation (TropBootPermProps); counterexamples for the fixed number of treated periods and for units without treatment values. | partial |
| C135 | The staggered-timing warning of the two-way fixed effects estimator | TwfeWarnProps | Model of the check with missing labels, periods and treatment values (TwfeWarn); first treated period characterised by minimality; number of cohorts as cardinality of the set of starting periods; counterexample with a late-entering treated unit. | partial |
| C136 | Sun-Abraham and Callaway-Sant'Anna give the same numbers on balanced panels | SunAbCsAggProps, SunAbCsDemoProps, SunAbCsOverallProps, SunAbCsProps | The outcome is split into fixed effects, the table of differences of cell means and a residual that sums to zero over units and over cohort-by-period cells; so the residual sum of squares is a constant plus the squared distance to that table, and full rank (C34) makes it the only minimiser. The pivoted panel is computed from the same rows; sums over rows are rewritten as sums over units and periods. Event studies and overall effects are compared as averages over permuted lists of cells. | proved |
| C137 | Estimators agree on a balanced design with one treated cohort | BlockAgreeProps | Every estimator is reduced to treated-minus-control gaps of row means: DifferenceInDifferences through C10, MultiPeriodDiD through C76, Bacon through the decomposition C32 with a single comparison, CallawaySantAnna by computing its post-treatment pairs, SunAbraham through C136, TwoWayFixedEffects by solving its normal equations. | partial |
| C138 | Sentences in the printed reports are true of the numbers beside them | ReportsLooProps, ReportsProps | Reports as data (sentences as constructors) in `Reports.lean`; an independent meaning for each sentence (all covered values positive, p below 0.05, power at least the target); truth of the sentence for regular results by case analysis on extended numbers, via the breakdown and power theorems of C41 and C43; refutations for missing numbers, negative M, early-ending grids and levels other than 5%. | partial |
| C139 | Numbering the periods differently does not change the results of the staggered estimators | BaconShiftProps, CSShiftProps, SunAbShiftProps | relabelling of panels and data frames as a map on the model input; every stage of the three `fit` functions commutes with it (injectivity on dates, sorting under monotone maps); counterexamples for dates reaching 0 | proved |
| C140 | Units and origin of the outcome: staggered estimators | BaconScaleProps, CSScaleProps, InferenceScaleProps, SunAbScaleProps | affine maps of the outcome; relation "entry in other units" preserved by every aggregation; balanced panels through the grid form of the within transform; counterexamples on panels with gaps | proved |
| C141 | Callaway-Sant'Anna effects do not depend on later data or on irrelevant units | CSLocalProps | agreement of two panels on the declared data implies agreement of the entry; truncation commutes with the list of effects | proved |
| C142 | Bootstrap replicates of the two-step TROP estimator re-estimate on the histories of the drawn units | TropBoot2Props | Row-level model of the Python two-step bootstrap (draws, text labels, pivots, stored weights, uncaught IndexError). Replicate panel = reordered drawn histories (label injectivity, sorting); with matching treatment columns and lambda_unit = 0 the stored weights are the reordered own weights, so the alternating minimisation is carried over by the permutation lemmas of C108; block designs by a counting argument on sorted lists. Exact condition for the exception. Refuted: dependence on names, aborted fits, dropped draws. | partial |
| C143 | Ordinary least squares is solved by the same rule on both backends, and that rule is least squares | SvdProps, SvdQrProps | Svd.lean computes the numbers of both backends from arbitrary factorizations (IsSvd, IsQr are the contracts); spectral argument for uniqueness (change of basis between two decompositions mixes only equal singular values), Bessel, triangular solve for the pivoted QR; counterexamples with exact rational factorizations. | partial |
| C144 | Callaway-Sant'Anna from the rows of the data: order, labels, repeats, missing outcomes | CSRowsProps | CSRows.lean builds the panel, the checks and the group sizes from the list of rows; row order and missing outcomes by showing that everything read from the rows depends only on the set of (unit, cohort), the set of periods and the observed cells; labels by transporting effects, aggregates and influence functions along a bijection of units; the two false readings by concrete data | proved |
| C145 | The order of the rows does not matter | RowOrderFit, RowOrderProps, RowOrderTriple, TropRowOrderProps | RowOrderProps.lean: the solvers of C143 on permuted rows; RowOrderFit.lean: any bijection of the rows through LinReg, DiD, absorbed DiD and TWFE by uniqueness of least squares on the kept columns and reindexing of sums; SunAbraham on permuted lists of rows, everything read off the rows being a sorted set, a sum or a count of units; counterexample with a unit of two cohorts; RowOrderTriple.lean: TripleDifference by reindexing of all cell sums, with the logistic regression and the cell regressions shown to satisfy the hypotheses; TropRowOrderProps.lean: the panel of TROP is read off sorted labels and a lookup without duplicates | partial |
| C146 | TwoWayFixedEffects reports the difference in differences with a standard error that reflects both groups | TwfeFitProps, TwfeFitRank | TwfeFit.lean is the whole fit over LinReg.lean and Within.lean; effects absorbed by C08; treatment in the span of the fixed effects by exhibiting the least squares solution; two-period panel by explicit row weights (Isolates), intercept and scores in closed form; redundant covariates, row order and controls (TwfeFitRank.lean) by C124_same_span and C124_outcome_rank | partial |
| C147 | TROP compares tuning parameters on one set of held-out cells | TropCvProps, TropCvTrace | Subsampling with the random generator as a parameter (a law: distinct positions, right number), one generator per evaluation in the two-step search, one per fit in the joint search. Samples are shown to be samples of the scorable cells; with a seed, or with few cells, the search is that of C55 for one fixed score. Without a seed the claim is false: a panel, a grid and a history of draws for which the selected combination is worse on every cell. | partial |
| C148 | MultiPeriodDiD.fit end to end | MultiFitControls, MultiFitProps, MultiFitRank | Verif/MultiFit.lean models the whole method on a finite type of rows; Verif/MultiFitProps.lean. Independence of the columns by solving for the coefficients cell by cell; effects from C76; positive semidefiniteness from C14 and C124; reference period by the change of columns and C124_reparametrize; row order from C145; covariates and fixed effects (MultiFitControls.lean) by showing the added terms lie in the span of the columns and uniqueness of least squares; two periods by identifying the design with that of C125. Zero standard errors, exhausted degrees of freedom and one row per cell are refuted. MultiFitRank.lean: redundant columns; the effects are estimable exactly if their columns are identified, then C124_same_span and C124_pair_span. | partial |
| C149 | BaconDecomposition as a function of the rows of the data | BaconRowsProps | Verif/BaconRows.lean models the method on a list of rows; Verif/BaconRowsProps.lean. What is read from the rows is collected in one record; repetition multiplies counts and sums, injective renaming transports them, and for a wide panel a bijection between rows and cells identifies the record with that of Bacon.lean. Counterexamples evaluated in the kernel | partial |
| C150 | DifferenceInDifferences with covariates, fixed effects and absorbed effects, from the columns of the data | DidFullControls, DidFullDemo, DidFullMore, DidFullProps, DidFullRows | Verif/DidFull.lean models the whole method on a finite type of rows; Verif/DidFullProps.lean, DidFullControls.lean, DidFullMore.lean, DidFullRows.lean, DidFullDemo.lean. Verif/LinRegRank.lean gives coefficient and variance of an identified column in a design with redundant columns through unique weights (C124_identified), so that every invariance is a statement about the span of the columns; failure conditions from C124_runs; absorbed effects by linearity of sequential demeaning. Counterexamples on a panel with ten rows | proved |
| C151 | A wild bootstrap fit of DifferenceInDifferences, from the columns to the report | WildLinMore, WildLinProps | `WildLin.fit` composes the analytical model of C150 with `wild_bootstrap_se` run through the same column check and solver; agreement with the closed-form bootstrap of C60 for full rank, an error for redundant columns; the report is a function of unique weights, residuals and projected replicates, from which shifts, units, row order and renaming follow. | proved |
| C152 | TwoWayFixedEffects with the wild bootstrap | WildTwfeProps | `WildTwfe.fit`: first regression without clusters, then `WildLin.wild` with the cluster column or the units; for independent columns the report equals a closed form (lever, residuals, projected replicates), else there is no result; shifts, scale, permutations and renaming act on the closed form. | proved |
| C153 | Results do not depend on the units of the outcome | DidScaleProps, LinRegScale, SdidScaleProps, TripleScaleProps, TropJointScaleProps, TropScaleProps | two runs compared function by function: the regression, influence functions, weights iterations (invariance of the iterates by induction), score and replicate lists; counterexamples computed exactly for the compiled weights and for TROP with tuning parameters from the default grids | partial |
| C154 | HonestDiD: units of the outcome, sign of the effects, order of the event study | HonestUnitsProps | equivariance of every step (weights, quadratic form, linear programme by scaling the feasible set, interval arithmetic), lifted through fit, the sensitivity table and the bisection | partial |
| C155 | Swapping 0/1 labels turns the effect round and changes nothing else | DidSwapProps, LinRegTwin, MultiSwapProps, TripleSwapCov, TripleSwapProps, WildSwapProps | DidFull.fit: the recoded design spans the same columns with the interaction coefficient multiplied by -1 (Twin), so weights change sign and residuals stay; report compared field by field. TripleFit.fit: relabelled cells in the closed forms of C128 and C36, and with covariates the span of the design (LinReg.TwinSpan); TwfeFit.fit: closed form of C146 for the panel; MultiFit.fit: the same span argument with one weight vector per period; WildLin.fit: replicates change sign, percentiles of a negated list are the negated opposite percentiles; literal witnesses for the failures. | partial |
| C156 | Changing the sign of the outcome changes the sign of the effect: SyntheticDiD and TROP | SdidSignProps, SoftSvdUseProps, TropSignProps | SdidFit.fit: the scaling lemmas of C153 with c = -1 (they need no sign) plus symmetry of the inference; codeWeights of both backends: the quadratic form and the gaps do not see the sign; TropFit: every step commutes with negation in any arithmetic with odd operations (Symmetric), instantiated for exact arithmetic, floats with infinities and NaN, and rounded arithmetic | proved |
| C157 | The low-rank step of TROP is well defined and solves its penalised problem | SoftSvdProps, SoftSvdProxProps, SoftSvdUseProps | SoftSvd.soft from a thin decomposition given by its equations; independence by interpolating the shrinkage by a polynomial p with s p(s^2), so that the result is M p(M'M); equivariance by transporting the decomposition; proximal property by trace duality (Bessel) over any ordered field; discharges what TROP theorems assume of the thresholding (C157_code_*) | partial |
| C158 | TROP's alternating fit never raises its penalised objective, and a resting point is a global minimum | TropDescentProps, TropJointDescentProps | sweep by sweep: weighted means minimise in alpha and beta (mean_min), the proximal inequality of C157_proximal with step 1/max W gives descent in L; a fixed point gives a subgradient, and with the normal equations global optimality by convexity; induction over the iteration limit; the documented objective refuted on one cell | partial |
| C159 | HonestDiD's sensitivity table is the table of its fits | HonestSensProps | induction over the grid (Forall2 for the rows, first failure for the error); invariant of the bisection (left end excludes, right end includes, width halves) without monotonicity; the closed form of relative-magnitude intervals for the order of the rows; C41 for the agreement of the two searches | proved |
| C160 | Synthetic-control weights of the NumPy backend are near-optimal with a stated rate | SynthRateProps | projection inequality against any competing weights, convexity and the step condition give a three-point inequality that telescopes over the loop; Cauchy-Schwarz at the stopping step; growth of the objective away from the minimiser for the distance of the weights; per-step progress for the iteration bound | proved |

## 4. What is modelled

Model modules and the code they transcribe (definitions cite exact lines in their comments; "Props" modules contain lemmas and theorems only).

* **Backend** Model of backend selection. /repo/diff_diff/_backend.py 1-92 (executed at import) and the dispatch used by the numerical routines: linalg.py 485, 522, 756, utils.py 1047, staggered_bootstrap.py 104, trop.py 538, 1355, 1595, 1984, 2815 (`if HAS_RUST_BACKEND and _rust_fn is not None`). `str.lower` is modelled by lower-casing ASCII letters: no other character lower-cases to one of the letters of "python" or "rust".
* **Bacon** Model of the Goodman-Bacon decomposition. /repo/diff_diff/bacon.py 402-867, /repo/diff_diff/utils.py 1404-1484 (within_transform) The data frame is a finite set of (unit, period) rows without duplicates; a unit's first_treat does not change over time; periods and finite cohorts are integers. `none` is NaN.
* **BaconRows** Model of `BaconDecomposition.fit` from the rows of the data. /repo/diff_diff/bacon.py 440-867, /repo/diff_diff/utils.py 1450-1484 (within_transform) `Bacon.lean` starts from the wide panel, with one row per unit and period and one first_treat value per unit; here both may fail: rows may repeat and first_treat may change within a unit. Simplifications: unit and time columns have no missing values, periods and finite cohorts are integers. The warning about unbalanced panels is not modelled.
* **BootStats** Model of bootstrap statistics of the Callaway-Sant'Anna and Sun-Abraham estimators. /repo/diff_diff/staggered_bootstrap.py 630-753, /repo/diff_diff/sun_abraham.py 1135-1159 Standard errors are represented by their squares.
* **BootWeights** Model of bootstrap multiplier generation. /repo/diff_diff/staggered_bootstrap.py 26-168, /repo/diff_diff/utils.py 217-309, /repo/rust/src/bootstrap.rs 57-151 Random number generators are abstract; the parallel fill of the Rust code is modelled as an arbitrary interleaving of element writes of the row tasks.
* **CS** Model of the Callaway-Sant'Anna estimator (panel data, one row per unit and period, time-invariant first_treat). /repo/diff_diff/staggered.py 371-1080, /repo/diff_diff/staggered_aggregation.py 40-492 Simplifications: periods and finite cohorts are integers; a unit's first_treat is constant over time (`groupby(...).first()`); standard errors are represented by their squares (`var`); dictionaries are association lists in insertion order.
* **CSBoot** Model of the multiplier bootstrap of the Callaway-Sant'Anna estimator and of the way `fit` uses its output. /repo/diff_diff/staggered_bootstrap.py 255-628, /repo/diff_diff/staggered.py 744-803 The weight generator is a parameter: `W b i` is the weight in draw b of the unit at position i of the sorted list of units (the distributions are modelled in BootWeights). Group-time effects and influence functions are finite. Standard errors are represented by their squares; the square root appears in t statistics only and is a parameter.
* **CSRows** Model of `CallawaySantAnna.fit` from the rows of the data, without covariates. /repo/diff_diff/staggered.py 371-439 (_precompute_structures), 623-733 (fit) /repo/diff_diff/staggered_aggregation.py 220-227 (group sizes of the standard error of the overall effect) `CS.lean` starts from the wide panel; here the panel is built from the rows, with a first_treat column that may differ between the rows of a unit. Simplifications: unit and time columns have no missing values, periods and finite cohorts are integers, standard errors are represented by their squares. The bootstrap is in `CSBoot.lean`.
* **DatasetCache** Model of the dataset download cache, with crashes and concurrent processes. /repo/diff_diff/datasets.py 24-27 (_get_cache_path), 30-54 (_download_with_cache), 57-62 (clear_cache), and the `try` blocks of the four loaders (130-135, 274-279, 421-426, 580-585) One dataset name (the paths of different names are different files and never interact, 24-27). A file is a directory entry pointing to a list of characters; a process that has the file open keeps its own position. `write_text` opens the file with truncation and then writes; here one character per step, so every split into system calls is covered. `read_text` is one step. `clear_cache` unlinks the file; a process that has it open goes on writing to the unlinked file.
* **Datasets** Model of the dataset loaders: the columns they derive and the replacement data they construct when offline. /repo/diff_diff/datasets.py 130-152 (load_card_krueger), 155-215 (_construct_card_krueger_data), 274-299 (load_castle_doctrine), 302-359 (_construct_castle_doctrine_data), 421-448 (load_divorce_laws), 451-525 (_construct_divorce_laws_data), 580-595 (load_mpdta), 598-644 (_construct_mpdta_data), 662-667 (list_datasets), 697-708 (load_dataset) Only the columns the loaders read or write are kept, each with its type; an absent column is `none`. Renames that collide with an existing column of the new name (pandas then keeps two columns of that name) are left out. Random numbers come from an arbitrary generator; `round` is an arbitrary function.
* **DatasetsEffects** Property C130: which effects the constructed datasets contain, and which states adopt when.
* **Dgp** Model of the synthetic data generators. /repo/diff_diff/prep_dgp.py 15-777 The random generator is a parameter: `z k` is the k-th standard normal draw, consumed in the order in which the code draws, and `rng.normal(0, sd)` is `sd * z k`. `rng.choice` results are a separate sequence. Numbers of units, periods and observations are natural numbers; arithmetic is exact, in particular in `int(n_units * fraction)`.
* **Diagnostics** Model of the placebo tests. /repo/diff_diff/diagnostics.py 80-135 (PlaceboTestResults), 193-352 (run_placebo_test), 355-451 (placebo_timing_test), 454-530 (placebo_group_test), 533-681 (permutation_test), 684-808 (leave_one_out_test), 811-927 (run_all_placebo_tests) and the validation of DifferenceInDifferences.fit, /repo/diff_diff/estimators.py 214-219, 533-564, utils.py 29-50. Simplifications: period labels are integers without missing values; the regression behind a validated fit is a parameter `reg` (it may raise); point estimates are exact numbers or NaN (`none`); the square root is a parameter; warnings are not modelled; the random draws of the permutation test are a parameter; `alpha` is a number in [0,1] (np.percentile raises otherwise).
* **Did2x2** Model of DifferenceInDifferences.fit: design matrix, treatment effect, absorbed fixed effects. /repo/diff_diff/estimators.py 231-299 A data frame is a finite type of rows; treatment and time are validated to be 0/1 (lines 218-219), hence `Bool` columns. Missing values are rejected by `_validate_data` (lines 533-564) and are not representable here.
* **DidFit** Model of DifferenceInDifferences.fit end to end without covariates, fixed effects or absorbed effects: regression, inference on the interaction, counts. /repo/diff_diff/estimators.py 249-359 Treatment and time are validated 0/1 columns (218-219), hence `Bool`. The analytical inference branch is modelled (307-314); the wild bootstrap is in WildBoot.lean. `drop` are the columns that solve_ols finds redundant (none when all four cells are occupied).
* **DidFull** Model of DifferenceInDifferences.fit end to end with covariates, fixed effects and absorbed effects, from columns with missing values. /repo/diff_diff/estimators.py 206-359 (fit), 533-564 (_validate_data), utils.py 29-50 (validate_binary), 1389-1403 (demean_by_group) Analytical inference only (inference="wild_bootstrap" with clusters is modelled in WildBoot.lean). The columns named in the call are distinct columns of the frame, numeric where the code converts them (`astype(float)`); labels of fixed and absorbed effects are integers. Infinite values are not represented. Names of the coefficients (var_names, 259-275, 323) are left out.
* **DidFullControls** Property C150, continued: what covariates, fixed effects and absorbed effects do to the report of DifferenceInDifferences.fit.
* **DidFullDemo** Property C150, continued: absorbed effects in unbalanced panels, missing labels, instances of the theorems.
* **DidFullMore** Property C150, continued: units, absorbed effects, missing labels, order of the rows; instances.
* **DidFullRows** Property C150, continued: order of the rows, redundant interaction.
* **Ext** Floating point values with exact finite part: NaN, the two infinities and numbers of an ordered field. The operations follow IEEE-754 / NumPy: comparisons with NaN are false, `0 * inf = nan`, `x / 0 = ±inf` (NumPy arrays and float64 scalars), `inf - inf = nan`. Rounding is not modelled and there is a single zero.
* **Formula** Model of the formula parser of DifferenceInDifferences. /repo/diff_diff/estimators.py 440-531 (_parse_formula) Strings are lists of characters. The set of characters removed by `str.strip()` (Unicode whitespace) is a parameter `ws`; the only assumption used by theorems is that it does not contain ~ * + :
* **HonestDid** Model of the sensitivity analysis: extraction of the event study, restriction sets, bounds, intervals and breakdown search. /repo/diff_diff/honest_did.py 208-232, 379-389, 517-1425 Simplifications: exact arithmetic; `root` is the square root, `z` the normal critical value, `solve` the linear programming solver (`scipy.optimize.linprog`), all parameters; estimates, standard errors and covariances that enter are finite, except that the average standard error of MultiPeriodDiD may be NaN; results may be infinite or NaN. Covariate columns whose name equals an interaction name are left out.
* **HonestSens** Model of the searches over M that call `HonestDiD.fit` repeatedly: the sensitivity table and the breakdown value. /repo/diff_diff/honest_did.py 1285-1425 Simplifications: as in HonestDid; `fit` is the fit of one result for a given M, whose failure ends the search.
* **Inference** Model of the inference fields computed from an estimate and its standard error. /repo/diff_diff/linalg.py 966-991 (InferenceResult), 1253-1343 (get_inference), 1471-1534 /repo/diff_diff/utils.py 81-143 (compute_confidence_interval, compute_p_value) and the guards of the estimators: staggered.py 693-695, 721-727; sun_abraham.py 603-605, 881-883; triple_diff.py 601-608; synthetic_did.py 328-343; trop.py 2189-2197; estimators.py 967-986. Reference distributions (scipy.stats.t / norm) are parameters: survival function and quantile.
* **LinReg** Model of the LinearRegression class: fit, the covariance matrices, and the inference on one coefficient. /repo/diff_diff/linalg.py 1107-1212 (fit), 1236-1343 (get_se, get_inference), 1404-1429 (r_squared); solve_ols enters through 655-715 (_solve_ols_numpy) with the dropped columns found by the pivoted QR decomposition as a parameter Exact arithmetic, NaN is `none`. The least squares solver, the square root and the pseudo-inverse are parameters. Input validation of solve_ols other than `n < k` is in Ols.lean. The compiled backend is in Vcov.lean (vcovRust).
* **LinRegPair** Property C124, continued: covariance of two identified coefficients in a design with redundant columns.
* **LinRegRank** Property C124, continued: coefficient, variance and degrees of freedom of an identified regressor in a design with redundant columns.
* **LinRegScale** Property C153 (regressions): the outcome in other units, whole fit, whatever columns are dropped.
* **LinRegSpan** Property C124, continued: inference on an identified coefficient depends on the span of the columns only, for designs of any rank, any number of columns and any order of the rows.
* **LinRegTwin** Property C155, regression part: designs with the same combinations of columns in which the coefficient of interest has the opposite sign.
* **Logit** Model of the propensity score regression used by CallawaySantAnna and TripleDifference. /repo/diff_diff/staggered.py 46-106; /repo/diff_diff/triple_diff.py 270-327 (same code) Real numbers replace floats. `scipy.optimize.minimize(method='BFGS')` is a parameter that receives the criterion, its gradient and the starting point; the code uses the point it returns without looking at its success flag.
* **MultiFit** Model of MultiPeriodDiD.fit end to end: classification of the periods, absorbed effects, design matrix, regression, effects by period, average effect. /repo/diff_diff/estimators.py 764-1018 A data frame is a finite type of rows with an outcome, a validated 0/1 treatment (783), an integer period, covariates, fixed-effect and absorbed columns (integer labels) and possibly a cluster column. No missing values except in the cluster column. Presence of the columns (773-780, 818-826) is taken for granted; the wild bootstrap request only warns (764-771). The coefficient dictionary, covariance matrix, residuals and fitted values of the result are left out. Exact arithmetic, NaN and infinities as in Ext.lean.
* **MultiFitControls** Property C148: what covariates and fixed effects do in MultiPeriodDiD.fit.
* **MultiFitRank** Property C148, continued: MultiPeriodDiD.fit with redundant columns (for instance a dummy for every unit, with which the group column is redundant).
* **MultiPeriod** Model of MultiPeriodDiD.fit: period classification, column layout, period effects and the average effect. /repo/diff_diff/estimators.py 769-1015 Simplifications: periods are integers, coefficients and covariance come from the least-squares core (`Verif.Ols`, `Verif.Vcov`) with NaN as `none`, standard errors are represented by their squares, inference from estimate and standard error is a parameter. `absorb` (covered by C64) is left out.
* **Ols** Model of the least-squares core. /repo/diff_diff/linalg.py 85-146 (_detect_rank_deficiency), 191-244 (expansion with NaN), 247-335 (_solve_ols_rust), 338-580 (solve_ols), 583-715 (_solve_ols_numpy), 1136-1212, 1431-1463 (LinearRegression.fit / predict) Numbers are elements of an ordered field (exact arithmetic), NaN is `none`. The LAPACK routines (pivoted QR, `gelsd` least squares) and the compiled solver are parameters; what is assumed about them appears as hypotheses of the theorems (`IsOls` for the solution, a permutation for the pivot).
* **Params** Model of estimator objects: constructor, get_params, set_params, and the state read by fit. /repo/diff_diff/estimators.py 120-144, 290-359, 390-438, 590-628 (DifferenceInDifferences) /repo/diff_diff/twfe.py 197-223; staggered.py 295-369, 1082-1106; sun_abraham.py 395-428, 1161-1180; triple_diff.py 485-513, 1177-1213; synthetic_did.py 131-156, 720-738; trop.py 451-500, 3080-3103; honest_did.py 996-1044; pretrends.py 440-482; bacon.py 383-400, 869-882 A Python object is its attribute dictionary; class attributes (methods) are a separate list because `hasattr` sees them too. Python guarantees distinct keyword names; theorems state it as a hypothesis.
* **Plot** Model of the data behind the event study plot. /repo/diff_diff/visualization.py 30-322 (plot_event_study), 325-422 (_extract_plot_data) Drawing itself (colours, fonts, axes) is left out: the model returns the points, error bars, positions, shaded range and marked reference that are passed to matplotlib. Period labels are integers. `z` is `norm.ppf(1 - alpha/2)` (line 205).
* **PlotMore** Model of the data behind the remaining plots and tables. /repo/diff_diff/visualization.py 425-532 (plot_group_effects), 535-689 (plot_sensitivity), 692-880 (plot_honest_event_study), 883-1036 (plot_bacon), 1039-1116 (_plot_bacon_scatter), 1119-1200 (_plot_bacon_bar) /repo/diff_diff/honest_did.py 436-450 (SensitivityResults.to_dataframe), 452-512 (SensitivityResults.plot) /repo/diff_diff/bacon.py 121-219 (summary), 225-255 (_weighted_sum, _total_weight, to_dataframe) The model returns what is handed to matplotlib (positions, heights, error bar lengths, lines, colour indices), not the rendering. matplotlib's `errorbar` raises ValueError for a negative error bar length and accepts NaN lengths; this check is modelled. Periods and cohorts are integers. `z` is `norm.ppf(1 - alpha/2)`.
* **Power** Model of the analytical power calculations. /repo/diff_diff/power.py 31-33 (MAX_SAMPLE_SIZE), 397-893 (PowerAnalysis) Simplifications: real arithmetic; the normal distribution function `cdf` and quantile `ppf` are parameters; unit counts are natural numbers and a count of zero raises ZeroDivisionError as in the code; overflow of the required sample size to infinity does not occur over the reals.
* **PowerCurve** Model of the power curves and of their plot. /repo/diff_diff/power.py 769-829 (power_curve), 831-893 (sample_size_curve) /repo/diff_diff/visualization.py 1203-1446 (plot_power_curve) Simplifications: as in Verif/Power.lean; sample sizes are natural numbers; the plot is the data handed to matplotlib (points of the line, horizontal and vertical line, marker, axis kind), without colours, titles and ticks; `numpy.interp` is transcribed with the linear search numpy uses for up to four points, which finds the same interval as its bisection for longer arrays when the abscissae are in order.
* **Prelude** Common Mathlib imports for all modules (one module at a time).
* **Prep** Model of data preparation: balancing, reshaping and indicator columns. /repo/diff_diff/prep.py 34-387 (make_treatment_indicator, make_post_indicator, wide_to_long, balance_panel), 655-717 (create_event_time), 563-652 (summarize_did_data), 720-779 (aggregate_to_cohorts). A data frame is the list of its rows. Simplifications: column lookup errors are not modelled except where stated; dtype changes caused by merging are not modelled; in the grid methods of balance_panel unit and time labels are not missing.
* **PrepRank** Model of `rank_control_units` and `_suggest_treatment_candidates`. /repo/diff_diff/prep.py 897-1123 and 1162-1241. Simplifications: the named columns exist; unit and time labels are not missing; values are numbers or missing (no infinities); square roots are a parameter `root`; `compute_synthetic_weights` is a parameter (it has its own model, `SynthWeights`); sorting is a parameter because pandas' default sort is not stable.
* **PrepValidate** Model of `validate_did_data` (/repo/diff_diff/prep.py 441-560). Message texts are reduced to the kind of problem they report. The dtype test of pandas is an attribute of the frame.
* **Pretrends** Model of the pre-trends power analysis. /repo/diff_diff/pretrends.py 205-260 (power_at on results), 435-962 (PreTrendsPower) Simplifications: real arithmetic; the chi-square quantile `ppf`, the survival function `sf` of the non-central chi-square, the normal quantile `zppf`, the pseudo-inverse `pinv` and the root finder `brentq` are parameters; estimates, standard errors and covariances are finite; covariate columns named like an interaction are left out.
* **PretrendsReport** Model of what is reported on top of the pre-trends power analysis. /repo/diff_diff/pretrends.py 99-110 (is_informative), 332-364 (plot of a curve), 994-1073 (sensitivity_to_honest_did), 1081-1166 (compute_pretrends_power, compute_mdv) /repo/diff_diff/visualization.py 1449-1681 (plot_pretrends_power) Simplifications: as in Verif/Pretrends.lean and Verif/PowerCurve.lean; the text of the interpretation is reduced to the line that states the verdict; the results have at least one pre-period, as `fit` guarantees.
* **Reports** Model of the sentences in the printed reports, as data: /repo/diff_diff/honest_did.py 199-205 (HonestDiDResults.__repr__), 237-313 (HonestDiDResults.summary), 391-428 (SensitivityResults.summary) /repo/diff_diff/diagnostics.py 86-161 (PlaceboTestResults.summary) /repo/diff_diff/pretrends.py 117-178 (PreTrendsPowerResults.summary) Layout, headings and the rounding of the printed numbers are not modelled.
* **Results** Model of the results classes: significance, printed summaries and exports. /repo/diff_diff/results.py 14-182 (DiDResults), 183-200 (_get_significance_stars), 203-249 (PeriodEffect), 252-476 (MultiPeriodDiDResults), 479-736 (SyntheticDiDResults) /repo/diff_diff/staggered_results.py 24-296 (GroupTimeEffect, CallawaySantAnnaResults) /repo/diff_diff/sun_abraham.py 96-245, triple_diff.py 123-263, trop.py 183-347 (same headline, same summary lines) Not modelled: number formatting (`:.4f`, column widths); a printed line is kept as its kind and the values on it. Dictionaries are association lists in insertion order.
* **RobustVcov** Model of the public function `compute_robust_vcov` with its choice of backend. /repo/diff_diff/linalg.py 755-787, /repo/rust/src/linalg.rs 176-192, 295-386 The two computations are `vcovNumpy` and `vcovRust` of Vcov.lean.
* **RowOrderFit** C145, continued: the order of the rows does not change the estimators built on regressions: LinearRegression, DifferenceInDifferences (also with absorbed effects), TwoWayFixedEffects and SunAbraham.
* **RowOrderTriple** C145, continued: TripleDifference. The order of the rows does not change the report, for each of the three estimation methods, with and without covariates.
* **Sdid** Model of the synthetic difference-in-differences estimator. /repo/diff_diff/utils.py 1203-1347, /repo/diff_diff/synthetic_did.py 158-379, 570-718
* **SdidCov** Model of SyntheticDiD.fit with covariates. /repo/diff_diff/synthetic_did.py 258-263, 417-454 Outcomes and covariates are finite (`solve_ols` raises otherwise). The least-squares solver is a parameter; theorems assume that it minimises the residual sum of squares (see C11). Coefficients of dropped columns count as 0.
* **SdidFit** Model of SyntheticDiD.fit on rows of data, with both variance methods. /repo/diff_diff/synthetic_did.py 158-420, 456-718 Covariates are not modelled here. The weight routines enter as a parameter; `codeWeights` are those of the code. Random draws (sampled positions, permutations) are parameters. Unit and period labels are integers; both columns have no missing values. Standard errors are square roots `r` of computed squares.
* **SimPower** Model of simulation-based power analysis. /repo/diff_diff/power.py 178-235 (SimulationPowerResults), 895-1209 (simulate_power). Simplifications: exact arithmetic in an ordered field, NaN is `none`; the data generator and the estimator are one parameter `run` giving, for the position of a simulation in the random stream and an effect size, what happens; standard error and interval attributes are numbers when present, so the four attributes are read before anything is recorded; progress output is left out; `n_simulations` is not negative.
* **Simplex** Model of the simplex projection used for synthetic-control weights. Python: /repo/diff_diff/utils.py 1112-1147 (`_project_simplex`) Rust: /repo/rust/src/weights.rs 139-162 (`project_simplex_internal`)
* **SoftSvd** Model of singular value soft-thresholding, the low-rank step of TROP. /repo/diff_diff/trop.py 2361-2420 (_soft_threshold_svd), /repo/rust/src/trop.rs 770-852 (soft_threshold_svd) Exact arithmetic in an ordered field. The decomposition is the one returned by the library (`np.linalg.svd`, faer's `thin_svd`): a parameter, of which only the defining equations (`IsThin`) are assumed. Entries that are not finite are `none` (`softPy`, `softRs`); elsewhere all entries are finite. The decomposition does not fail and has finite entries, the product does not overflow (trop.py 2388-2396, 2416-2418; trop.rs 790-819).
* **SunAb** Model of the Sun-Abraham interaction-weighted estimator. /repo/diff_diff/sun_abraham.py 429-1160 A data frame is a list of rows with an integer index label. Simplifications: periods and finite cohorts are integers, no covariates, standard errors are represented by their squares, the regression (LinearRegression.fit on the demeaned columns) is a parameter, inference from estimate and standard error is in `Verif.Inference`.
* **Svd** Model of the numerical part of `solve_ols`, for both backends. /repo/rust/src/linalg.rs 44-163 (solve_ols: thin SVD, truncation, minimum-norm coefficients) /repo/diff_diff/linalg.py 85-146 (_detect_rank_deficiency), 247-335 (_solve_ols_rust), 482-580 (routing in solve_ols), 583-715 (_solve_ols_numpy) `Ols.lean` models the control flow of the same function with the numerical routines as opaque steps; here the numbers are computed, so that the results of the two backends can be compared. Exact arithmetic in an ordered field. The matrix factorizations (faer's thin SVD, LAPACK's SVD inside `gelsd`, LAPACK's column-pivoted QR) are parameters; what is assumed about them is `IsSvd` and `IsQr`.
* **SvdExists** The contract `IsSvd` of the factorization routines can be met for every real matrix with at least as many rows as columns, so the hypotheses of the theorems of `SvdProps` are satisfiable for every design.
* **SynthWeights** Model of synthetic-control unit weights and time weights. /repo/diff_diff/utils.py 997-1200, /repo/rust/src/weights.rs 54-110
* **Trends** Model of the pre-trend checks. /repo/diff_diff/utils.py 523-616 (check_parallel_trends), 619-775 (check_parallel_trends_robust), 778-834 (outcome changes), 837-994 (equivalence_test_trends). Exact arithmetic in an ordered field; missing outcomes and NaN results are `none`. Parameters: square root `r`, two-sided normal p-value `pv`, survival and distribution function of Student's t `sf`, `cdf`, the Wasserstein distance `wd`, the permutations drawn. Simplifications: the group column holds integers, the time column numbers; without a unit column every period of a group has an observed outcome; the Kolmogorov-Smirnov entries are left out.
* **TripleDiff** Model of TripleDifference: validation, the three estimation methods and their variances. /repo/diff_diff/triple_diff.py 515-1175 Rows are a finite type; group, partition and time are validated to be 0/1 and are `Bool` columns from then on. Standard errors are represented by their squares. The logistic regressions and outcome regressions are parameters (arrays of propensity scores `pG`, `pP` and of fitted values `mu`).
* **TripleFit** Model of TripleDifference.fit end to end: validation of the eight cells, the three estimation methods with and without covariates, inference, counts. /repo/diff_diff/triple_diff.py 515-637 (fit), 702-717 (_compute_cell_means), 719-775 (_regression_adjustment), 777-920 (_ipw_estimation), 922-1104 (_doubly_robust); `triple_difference` (1308-1322) passes its arguments to the constructor and to fit and adds nothing Group, partition and time are validated 0/1 columns (triple_diff.py 666-677), hence `Bool`; numbers are exact. The point estimates and variances of the weighting methods are those of TripleDiff.lean, the regression is that of LinReg.lean. The logistic regression (Logit.lean), the regressions inside the cells, the column check of solve_ols, the square root and the t distribution are parameters. Warnings are not modelled.
* **Trop** Model of the panel checks and of the tuning search of `TROP.fit` (method "twostep"). /repo/diff_diff/trop.py 694-854, 1873-1968, 2036-2120. Simplifications: the named columns exist; unit and time labels are not missing; treatment values are finite numbers or missing; the optional compiled grid search is absent, so the Python search always runs; the cross-validation score is a parameter here (its model is in `TropFit`).
* **TropBoot** Model of the Python bootstrap of `TROP(method="joint")`, from the rows of the data. /repo/diff_diff/trop.py 1637-1693 (resampling, standard error), 1695-1744 (one replicate). The resampling lines are those of the two-step method as well (trop.py 2849-2882). Exact arithmetic; the routines of `TropJoint.Env` do not raise `LinAlgError`. Unit labels of the data are of one type, so that building a NumPy array from them changes none of them. The random draws are lists of positions.
* **TropBoot2** Model of the Python bootstrap of `TROP(method="twostep")`, from the rows of the data. /repo/diff_diff/trop.py 2841-2906 (resampling, standard error), 3005-3078 (one replicate), 2290-2324 (stored weights), 2555-2574. The draws, labels and rows of a replicate are those of `Verif/TropBoot.lean` (the lines are the same in both methods); the estimation is that of `Verif/TropFit.lean`. Exact arithmetic; no `LinAlgError`; the compiled library is absent.
* **TropCv** Model of the cells on which TROP scores tuning parameters: the subsample of the untreated cells, when it is drawn, and the search that reads it. /repo/diff_diff/trop.py 557-559, 694-854, 1408-1450, 2032-2100, 2689-2702; /repo/rust/src/trop.rs 349-354, 408-437. `TropFit.score` and `Trop.select` take the subsampling as a fixed function. Here it is drawn by a generator: the two-step score creates `np.random.default_rng(self.seed)` on every call, so without a seed each evaluation has a generator of its own. Simplifications: the random generators are parameters (`Rng`, `Gen`); `max_loocv_samples` is a natural number; outcomes are not infinite, so `is_finite` (Rust) and `not isnan` (Python) select the same cells.
* **TropCvTrace** Each evaluation of the two-step leave-one-out score is made once, at one combination, with its own subsample (C147).
* **TropFit** Model of the estimation part of `TROP` (method "twostep"): observation weights, alternating minimisation, cross-validation score, point estimate, jackknife and bootstrap replicates. /repo/diff_diff/trop.py 502-573, 648-692, 2121-2164, 2236-2750, 2868-3078. The code is written once over an arbitrary number type with a record of operations `Ops` and used at two instances: exact arithmetic in an ordered field (`fieldOps`) and floats with exact finite part, infinities and NaN (`extOps`), because the code itself feeds infinities into the weights. Simplifications: matrices are functions of (period index, unit index); missing outcomes are `none`; outcomes are not infinite; `exp`, `sqrt` and the singular value decomposition are parameters; linear algebra routines do not raise; the compiled routines are absent, so the Python code runs; replicates have the same number of units as the data.
* **TropJoint** Model of `TROP(method="joint")`. /repo/diff_diff/trop.py 860-1215 (weights, score, solvers), 1217-1475 (fit), 1695-1823 (replicates, jackknife). Exact arithmetic. Parameters: the exponential `e`, the square root `r`, the thresholded reconstruction `svd` and NumPy's least-squares routine `lstsq`. Missing outcomes are `none`; outcomes are not infinite; the routines do not raise `LinAlgError`. The compiled search is absent (Python search), `max_iter` is at least 1.
* **TropJointRust** Model of the compiled tuning search and bootstrap of `TROP` (method "joint"). /repo/rust/src/trop.rs 1077-1164 (weights), 1172-1293 (coordinate descent), 1301-1375 (factor matrix), 1388-1448 (score), 1472-1565 (search), 1588-1721 (bootstrap); /repo/diff_diff/trop.py 1355-1370 (use of the search), 1601-1635 (use of the bootstrap). The code is written over the record of operations `TropFit.Ops` and used at two instances: exact arithmetic in an ordered field (`fieldOps`) and floats with exact finite part, infinities and NaN (`extOps`), because the weights may be NaN. Simplifications: the parallel maps are maps (each result depends on its own index); `exp`, `sqrt` and the singular value decomposition are parameters, the latter does not fail; missing outcomes are `none`, outcomes are not infinite; treatment entries are 0 or 1; the random draws of the subsampling and of the bootstrap are arguments.
* **TropRust** Model of the compiled tuning search and bootstrap of `TROP` (method "twostep"). /repo/rust/src/trop.rs 170-405 (search), 446-870 (scores, weights, estimation), 897-1055 (bootstrap); /repo/diff_diff/trop.py 1983-2097 (use of the compiled search). Exact arithmetic in an ordered field; the parallel map over a grid is a map (each result depends on its own grid value). Parameters: exponential `e`, square root `r`, singular value thresholding `svd`; linear algebra does not fail, so `estimate_model` never returns `None`; missing outcomes are `none`, outcomes are not infinite.
* **TwfeFit** Model of TwoWayFixedEffects.fit end to end with analytical inference: within transformation, regression, inference on the interaction, counts. /repo/diff_diff/twfe.py 57-246 A data frame is a finite type of rows with a unit, a period, a treatment, an outcome, covariates and possibly a cluster column. No missing values except in the cluster column. The staggered check only warns (twfe.py 94, TwfeWarn.lean); the wild bootstrap branch (200-204) is in WildBoot.lean.
* **TwfeFitRank** Property C146, continued: covariates that are redundant after the transformation, row order, controls, for every choice of the columns dropped.
* **TwfeWarn** Model of the staggered-timing check of `TwoWayFixedEffects.fit`. /repo/diff_diff/twfe.py 283-316 (`_check_staggered_treatment`), called at 94 before anything else is computed. Labels and periods are of ordered types; a missing label, period or treatment value is `none`.
* **Vcov** Model of the robust covariance estimators and of R-squared. /repo/diff_diff/linalg.py 790-871 (_compute_robust_vcov_numpy), 874-913 (compute_r_squared) /repo/rust/src/linalg.rs 193-277 (compute_robust_vcov_internal) Exact arithmetic; `np.linalg.solve` is multiplication by the inverse matrix and fails when the matrix is singular. A missing cluster id (NaN) is `none`.
* **WildBoot** Model of the wild cluster bootstrap. /repo/diff_diff/utils.py 312-520 (wild_bootstrap_se), called with null 0 by estimators.py 416-424 and twfe.py. Simplifications: real arithmetic; cluster identifiers without missing values; the design has full column rank (a singular design is an error here, the code drops columns with a warning); random weights are a parameter; an empty list of draws (`n_bootstrap = 0`) makes `np.percentile` raise.
* **WildLin** Model of wild_bootstrap_se as the estimators reach it, with the column check and the least squares solver of solve_ols. /repo/diff_diff/utils.py 403-520 (wild_bootstrap_se), /repo/diff_diff/linalg.py 440-480, 639-715 (solve_ols) /repo/diff_diff/estimators.py 206-359 (fit with inference="wild_bootstrap"), 390-438 (_run_wild_bootstrap_inference) /repo/diff_diff/twfe.py 57-246 (the same branch of TwoWayFixedEffects.fit) WildBoot.lean models the same function for full-rank designs by the inverse matrix; here a column found redundant gives NaN coefficients as in the code. Real arithmetic; cluster identifiers without missing values; the random weights of a replicate are a function of the cluster (utils.py 460-474 assign the drawn vector to the sorted cluster labels); a fresh estimator object (C20 is about refitting); alpha in [0, 2], outside of which `np.percentile` raises.
* **WildLinMore** The wild bootstrap of DifferenceInDifferences: controls, units, order of the rows, names of the clusters, comparison with analytical inference (C151).
* **WildTwfe** Model of TwoWayFixedEffects.fit with inference="wild_bootstrap". /repo/diff_diff/twfe.py 57-246, /repo/diff_diff/estimators.py 390-438 (_run_wild_bootstrap_inference), /repo/diff_diff/utils.py 403-520 Analytical inference is in TwfeFit.lean, the bootstrap itself in WildLin.lean. Real arithmetic; no missing values; a fresh estimator object; alpha in [0, 2]; the random weights of a replicate are a function of the cluster.
* **Within** Model of the one-way and two-way within transformations and of TwoWayFixedEffects.fit. /repo/diff_diff/utils.py 1350-1484, /repo/diff_diff/twfe.py 57-246 A data frame is a finite type of rows `ι` with a key column and a numeric column. Simplification: no missing keys or values (pandas would skip NaN in the means).

## 5. Not modelled, and assumptions on outside routines

Not modelled: floating-point rounding, overflow and signed zeros; pandas index alignment except where
a property is about it; plotting (`visualization.py`), dataset downloads (`datasets.py`), the
random number generator (the data generators of `prep_dgp.py` take the draws as an arbitrary sequence); numerical accuracy of LAPACK/faer/scipy; performance; the text of
warnings; number formatting. Of the compiled code, the joint TROP routines (trop.rs 1057-1803), the
distance matrix export (trop.rs 37-160), control cell sampling (trop.rs 408-440), the linear solvers
inside linalg.rs and the Python bindings are not modelled; bootstrap.rs 57-151, linalg.rs 127-140 and
193-277, weights.rs 54-162 and trop.rs 170-405, 446-1055 are.

Outside routines are parameters. A theorem that needs something of them says so as a hypothesis, and
an `example` or `demo` instance shows that the hypothesis can be met:

* square roots: `r x * r x = x` for `x >= 0` (standard errors are often compared as squares instead);
* exponentials in weights: positive, monotone, 1 at 0;
* distribution functions: symmetric, monotone, values in [0, 1], quantile as inverse;
* `lstsq`: returns a minimiser of the sum of squared residuals (existence is proved:
  `TropJoint.exists_leastSquares`);
* singular value thresholding: depends on the matrix entries in range only; maps the zero matrix to
  the zero matrix; for the comparison of backends (`TropRust.Shrink`) a matrix whose entries are small
  against the threshold is mapped to zero; for C108 (`TropPerm.SvdSym`) it commutes with rearranging
  the columns;
* `simulate_power`: data generator and estimator are arbitrary functions of the position in the random
  stream and the effect size;
* unstable sorts: return a sorted permutation;
* random generators: arbitrary functions of seed and call index, or a product measure where a
  theorem is about distribution.

## 6. Properties that are false of the code

Each theorem proves the negation of (part of) a property, on a witness or a class of inputs.

* `DiffDiff.SynthWeights.C05_negative_zeta_refuted`: C05, hypothesis is needed: `zeta` is not validated (utils.py 1153, synthetic_did.py), and a negative value can give negative weights.
* `DiffDiff.Within.C08_unbalanced_refuted`: C08 refuted for unbalanced panels: the within transformation does not remove a pure period effect (here: +1 in period 1), nor do the transformed values of a unit sum to zero.
* `DiffDiff.Within.C08_unbalanced_sums_refuted`: C08 refuted for unbalanced panels: transformed values of a unit need not sum to zero.
* `DiffDiff.Within.C08_unbalanced_idempotent_refuted`: C08 refuted for unbalanced panels: transforming twice gives something else than transforming once.
* `DiffDiff.Within.C09_twfe_att_refuted`: C09 refuted. In the textbook 2x2 panel with unit effects 0 and 5, period effect 2 and treatment effect 3, the number reported by `TwoWayFixedEffects.fit` is 1, not 3.
* `DiffDiff.Within.C09_period_labels_refuted`: C09 refuted, second cause: the regressor multiplies the treatment dummy with the numeric value of the time column, so relabelling the two periods from (0, 1) to (1, 2) changes the estimate.
* `DiffDiff.Ols.C13_skip_returns_nan_refuted`: The claim fails on the fast path: with `skip_rank_check=True` the compiled solver's NaN matrix is returned as is, although without the compiled backend the same call returns a solved result.
* `DiffDiff.Inference.C17_sa_triple_sdid_refuted`: C17 fails for Sun-Abraham, triple differences and synthetic DiD: for every non-zero estimate, a zero standard error is reported as t = 0, p = 1 ("no effect") next to the interval [est, est] that excludes zero; a NaN standard error also gives t = 0, p = 1.
* `DiffDiff.Inference.C17_regression_zero_se_refuted`: C17 fails for regression estimators: a zero standard error with a positive coefficient is reported as t = +inf, p = 0 and significant at every positive level.
* `DiffDiff.Inference.C17_cs_interval_refuted`: C17 fails for Callaway-Sant'Anna intervals: a zero standard error yields the finite interval [est, est] beside NaN test fields.
* `DiffDiff.Params.C19_partial_update_refuted`: C19 fails for every attribute-loop class: passing any documented parameter followed by any unknown key raises, but the documented parameter has been changed.
* `DiffDiff.Params.C19_honest_invalid_state_refuted`: C19 fails for HonestDiD: set_params(M=-1) raises, and the object keeps M = -1.
* `DiffDiff.Params.C19_unvalidated_option_refuted`: C19 fails for options validated only by the constructor (CallawaySantAnna.control_group and the like): an invalid value is accepted and stored.
* `DiffDiff.Params.C20_stale_method_refuted`: C20 is false: for every parameter setting that uses the bootstrap and every later setting that does not, refitting after set_params reports "wild_bootstrap" for an analytical fit.
* `DiffDiff.Formula.C21_two_interactions_refuted`: C21 is not fully true: a formula with two interaction terms is accepted, the first interaction is silently discarded and the last one is used.
* `DiffDiff.Formula.C21_covariate_first_refuted`: C21 is not fully true: a covariate before the product is taken as part of the treatment name; with a column of that name it is used as the treatment.
* `DiffDiff.CS.C23_anticipation_refuted`: C23 is false with anticipation: with a = 1 the unit treated in 6 is affected from 5 on, but is a control for cohort 4 in period 5.
* `DiffDiff.CS.C23_universal_refuted`: C23 is false for a universal base before treatment: for cohort 6 and t = 2 the base is 5; the unit treated in 4 is a control although it is treated at the base period.
* `DiffDiff.CS.C24_anticipation_refuted`: C24 fails for not-yet-treated controls under anticipation: parallel trends and limited anticipation hold, the effect of the treated unit is 0, but the reported effect is -7.
* `DiffDiff.CS.C26_ipw_refuted`: C26 is false for method "ipw" without covariates: same estimate and same influence function as "dr", but a different standard error; here the squared errors are 11/6 and 17/12.
* `DiffDiff.CS.C26_single_pair_refuted`: C26 is false across outputs: an event-study entry (or group effect) made of a single ATT(g,t) has a smaller standard error than that ATT(g,t) itself, because the aggregate omits the degrees-of-freedom factor.
* `DiffDiff.BootStats.C27_zero_estimate_refuted`: C27 is false at an estimate of exactly zero: the p-value depends on the sign convention.
* `DiffDiff.CS.C30_cs_refuted`: C30 is false for Callaway-Sant'Anna: coding never-treated units by infinity adds a group "inf", counts these units as treated *and* as controls, adds effects ATT(inf, t), and adds an event-study entry at -infinity.
* `DiffDiff.SunAb.C30_sunab_refuted`: C30 is false of the Sun-Abraham results: coding never-treated units as infinity adds infinity to the treatment groups and counts those units as treated as well as control.
* `DiffDiff.Bacon.C32_refuted`: C32 is false of the weights as coded: a balanced panel with absorbing treatment whose reported decomposition error is not zero, with either weight option.
* `DiffDiff.SunAb.C35_refuted`: C35 is false for other indices: with a reversed index, drawing units 3, 1, 2, 4 gives a sample in which the rows filed under the first draw (unit 3, never treated) are the rows of unit 2 (cohort 3), and with labels beyond the number of rows the bootstrap stops with an IndexError.
* `DiffDiff.SunAb.C35_filtered_refuted`: C35 is also false of default indices: the default option removes rows with a missing cohort before resampling, which leaves gaps in the index, so the positions no longer match the labels.
* `DiffDiff.TripleDiff.C36_dr_refuted`: C36 is false of the doubly robust method: with repeated cross-sections whose cell shares change over time, constant outcomes (no effect at all) yield a non-zero estimate, and shifting the outcome changes the estimate.
* `DiffDiff.TripleDiff.C37_refuted`: C37 is false: even when the outcome model fits perfectly, the estimate moves with the propensity scores.
* `DiffDiff.HonestDid.C39_exact_range_refuted`: C39 is false for other weight vectors: whenever the absolute weights do not sum to one and some violation is allowed, the reported set differs from the range; too small a set if they sum to more.
* `DiffDiff.HonestDid.C40_refuted`: C40 is false: for every number of periods, every M (including 0), all coefficients and every weight vector with non-zero sum (in particular the default), a correct solver leads to an infinite identified set.
* `DiffDiff.HonestDid.C42_refuted`: C42 is false for every MultiPeriodDiD fit: the covariance block used starts at the constant, and none of its rows belongs to an analysed post-period coefficient.
* `DiffDiff.HonestDid.C42_pre_magnitude_refuted`: C42 is false as well for the pre-period magnitudes: MultiPeriodDiD never estimates pre-period coefficients, so its average standard error is taken as the largest pre-period violation, for every fit.
* `DiffDiff.Pretrends.C43_unit_refuted`: With a single estimated pre-period the linear pattern is the zero vector, not a unit vector.
* `DiffDiff.Pretrends.C43_mdv_finite_refuted`: The promise of a finite answer whenever some violation reaches the target fails: the search stops doubling at 512, so a target that needs a non-centrality between 512 and 1000 is reported as out of reach.
* `DiffDiff.Pretrends.C43_power_at_refuted`: For a custom pattern it does not: the weights are forgotten and equal weights used.
* `DiffDiff.Power.C44_mde_refuted`: For the two-sided test power at the minimum detectable effect is never exactly the target.
* `DiffDiff.Power.C44_mde_less_refuted`: Against the alternative of a negative effect, the effect reported as detectable with the target power is detected with less than `alpha`.
* `DiffDiff.Power.C44_sample_size_refuted`: Without the proviso it fails: with equal allocation and an odd total the sample returned is too small.
* `DiffDiff.Power.C44_panel_size_refuted`: Panel designs: the number returned is twice what is needed. With three periods, 24 units are asked for although 12 already have the requested minimum detectable effect.
* `DiffDiff.Power.C44_reported_power_refuted`: The reported power ignores the direction of the effect: against a positive effect, a negative one is reported with the target power but is detected with less than `alpha`.
* `DiffDiff.Diagnostics.C45_nan_effect_refuted`: False of the code: when the original effect is not identified (NaN), the test reports the smallest possible p-value, and declares significance as soon as there are enough permutations.
* `DiffDiff.Diagnostics.C45_valid_refuted`: False of the code: the reported p-value is not valid. For every number n ≥ 2 of permutations there is an exchangeable law (n + 1 distinct effects in random order) under which p ≤ 1/n has probability 2/(n+1), more than 1/n.
* `DiffDiff.Prep.C47_missing_period_refuted`: False of the code for missing period labels: one row without a period empties the result, although units may be complete over all labelled periods.
* `DiffDiff.Prep.C49_repeated_column_refuted`: False when a value column is listed twice: the call is accepted, but every row of that column carries the later label and the earlier label does not occur.
* `DiffDiff.PrepRank.C50_missing_covariate_refuted`: One control with an undefined covariate distance switches covariate matching off for every unit, without an error: all covariate scores are missing and the quality is the outcome score.
* `DiffDiff.PrepRank.C50_scores_refuted`: Scores are not always numbers: if the first control has no comparable period, every outcome score is missing.
* `DiffDiff.PrepValidate.C51_type_error_refuted`: The claim that nothing is raised without `raise_on_error` is false: a treatment column with both strings and numbers makes the message itself fail with a TypeError.
* `DiffDiff.PrepValidate.C51_multi_period_refuted`: "Valid" does not mean estimable beyond two periods: here the treated group is observed only in periods 2 and 3, the control group only in periods 0 and 1, so no period compares the groups, yet the report is valid.
* `DiffDiff.Results.C52_period_level_refuted`: C52, what fails: the flag of a period effect ignores the level of the fit. For every level `a` different from 5% there is an effect, with its t statistic, p-value and interval all computed at level `a`, whose flag contradicts its own interval: significant although the interval contains zero (a < 5%), or not significant although it excludes zero (a > 5%).
* `DiffDiff.Diagnostics.C53_placebo_refuted`: The interval of the fake-timing test does not depend on the significance level of the test, although the summary prints the level `1 - alpha` next to it; the two agree only for the estimator's own level.
* `DiffDiff.Results.C53_refuted`: C53, what fails: `summary(alpha)` only changes the printed level. For every fit and every requested level the printed interval is the stored one, so whenever the printed whole percentage differs from the level of the fit the line is wrong. This includes levels of the fit which are not whole percentages, with no argument at all.
* `DiffDiff.Trop.C54_nonbinary_refuted`: **C54, refuted for values other than 0 and 1.** The treatment column is not checked to be binary: a unit whose indicator is 0.5 from period 3 on is accepted and counted as a control (truncation), and a unit at level 2 is accepted and counted as a control too, although the panel treats it as neither treated nor untreated.
* `DiffDiff.Trop.C55_global_refuted`: **C55, refuted as a global claim.** The search is coordinate descent: it can stop at a combination that is beaten by another combination of the user's grid values.
* `DiffDiff.TropFit.C56_final_score_refuted`: **C56, refuted for the stored score.** Writing infinity instead of 0 for the time parameter gives the same estimate but a different stored cross-validation score (here the squared outcome 1 instead of the leave-one-out error 0).
* `DiffDiff.TropFit.C57_bootstrap_refuted`: **C57, refuted for the bootstrap.** A replicate that draws every unit exactly once does not reproduce the point estimate: the new labels "10_0", "11_1", "2_2" put the treated unit last, while the weights are still computed with the stored column order. With weights computed from the replicate itself the point estimate is reproduced.
* `DiffDiff.WildBoot.C60_refuted`: False of the code: bootstrap samples are generated with coefficient `estimate - null` instead of `null`. Averaged over balanced weights the bootstrap coefficient is `estimate - null`, so the numerator of the bootstrap t statistic is centred at `estimate - 2 null`; for the default null of zero it is centred at the estimate itself.
* `DiffDiff.WildBoot.C60_no_power_refuted`: Consequence for the default null of zero: with one observation per cluster, a saturated design such as the 2x2 design and sign weights drawn in pairs `w`, `-w` (for example all sign vectors), the p-value is at least half the share of replicates with a positive standard error, however large the true effect is. A true effect is therefore never detected.
* `DiffDiff.WildBoot.C60_perfect_fit_refuted`: A perfect fit whose coefficient equals the null has an undefined t statistic; comparisons with it are false, so the p-value reported is the smallest possible.
* `DiffDiff.SynthWeights.C62_rust_worse_than_uniform_refuted`: C62/C61 refuted for the compiled backend: with its fixed step size 0.1 there is an input (one pre-period, controls 0 and 10, treated 4, no penalty) for which *every* positive iteration budget and tolerance gives weights whose fit is at least 16 times worse than equal weights, which have objective 1.
* `DiffDiff.SynthWeights.C62_backends_differ_refuted`: C62 refuted: the two backends do not return the same weights. The interpreted backend (with any valid step size) is at least as good as equal weights on this input, the compiled one is not.
* `DiffDiff.Sdid.C63_large_effect_significant_refuted`: C63 refuted: "an effect at least 100 standard errors from zero has a p-value below 0.05" fails for the bootstrap method. Witness: estimate 100, draws 99 and 101.
* `DiffDiff.Did2x2.C64_absorb_unbalanced_refuted`: C64 is false on unbalanced panels: for a noiseless additive outcome with effect 1, `absorb=['unit']` reports 3/4, while including the unit dummies (`fixed_effects=['unit']`) reports 1 whichever least-squares solution is returned.
* `DiffDiff.Vcov.C65_saturated_refuted`: C65 fails for saturated designs: with as many observations as parameters, which `solve_ols` accepts, the interpreted path always dies with ZeroDivisionError instead of a documented ValueError.
* `DiffDiff.RobustVcov.C66_message_refuted`: C66 is false of the exception raised: with two equal columns and a single cluster the interpreted backend complains about the clusters and the compiled one about the design.
* `DiffDiff.RobustVcov.C66_saturated_refuted`: C66 is false with as many rows as columns: for every such design with independent columns and no clusters the interpreted backend raises ZeroDivisionError and the compiled one returns a matrix without a finite entry.
* `DiffDiff.Vcov.C66_missing_cluster_refuted`: C66 is false with a missing cluster id: the interpreted backend drops the row's score from the meat but counts it as a cluster, the compiled backend treats the missing ids as a cluster. Here the reported variances are 5/3 and 7/3.
* `DiffDiff.Inference.C67_df_none_refuted`: C67 is false: the documented way to ask for the normal distribution, `df=None`, is indistinguishable from the default, so after every fit with positive degrees of freedom the t distribution is used.
* `DiffDiff.Inference.C68_interval_contradicts_p_refuted`: C68 is false: whenever the t distribution has heavier tails than the normal at its critical value, there are estimates for which the interval excludes zero although p ≥ alpha.
* `DiffDiff.Params.C69_internal_names_refuted`: C69 is false: for every attribute-loop class, set_params accepts the name of a method (for instance `fit`) and shadows it, and accepts internal state attributes.
* `DiffDiff.Params.C70_cs_weights_refuted`: C70 is false for CallawaySantAnna: `bootstrap_weights` passed to the constructor selects the bootstrap weights, the same keyword passed to set_params is stored but not used.
* `DiffDiff.Params.C70_honest_default_refuted`: C70 is false for HonestDiD: the default M depends on the method in the constructor only.
* `DiffDiff.CS.C71_collinear_refuted`: C71 is false for collinear covariates: least squares reports NaN for the dropped column, and then the covariate-adjusted effect of a non-empty cohort is NaN instead of the effect computed from the kept columns.
* `DiffDiff.BootStats.C72_refuted`: C72 is false in both directions: draws whose percentile interval at level 1/2 excludes zero while p = 1, and draws with p < alpha whose interval contains zero.
* `DiffDiff.SunAb.C73_failed_replicates_refuted`: C73 is false: if no replicate contains a treated unit, none can be estimated, yet the bootstrap reports standard error 0, a one-point confidence interval and the smallest possible p-value for every non-zero estimate.
* `DiffDiff.TripleDiff.C75_ipw_refuted`: C75 is false of the IPW method: adding a constant to every outcome leaves the estimate unchanged but changes its standard error; with constant outcomes (no variation at all) the standard error is positive.
* `DiffDiff.HonestDid.C77_nan_refuted`: C77 is false: a missing average standard error gives NaN intervals under relative magnitudes, which are reported as significant, for every estimate, weight vector and M.
* `DiffDiff.HonestDid.C77_none_refuted`: C77 is false: `breakdown_value` says "always significant" whenever the breakdown exceeds 10, although the interval includes zero from the breakdown on.
* `DiffDiff.HonestDid.C77_repr_refuted`: C77 is false: a breakdown value of zero (never robust) is printed like a missing one (always robust).
* `DiffDiff.HonestDid.C77_negative_M_refuted`: C77 is false: a negative M is refused by the constructor but accepted by `fit`, which then reports a lower bound above the upper one.
* `DiffDiff.Pretrends.C78_refuted`: A plain MultiPeriodDiD fit is always refused: it has interactions for post periods only, so none of its pre-periods counts as estimated.
* `DiffDiff.Pretrends.C78_name_refuted`: Naming estimated periods as pre-periods does not help unless the treatment column is literally called `treated`.
* `DiffDiff.Power.C79_panel_refuted`: With more periods and independent errors it is at most a quarter of it, whatever the numbers of periods.
* `DiffDiff.Diagnostics.C80_refuted`: False of the code: on no data and with no arguments can `run_all_placebo_tests` return both a permutation (or leave-one-out) result and a fake-timing result. The former need a 0/1 time column, the latter at least two pre periods and a post period in the same column.
* `DiffDiff.Diagnostics.C80_multi_period_refuted`: In particular with three or more distinct periods the permutation and leave-one-out entries are always errors.
* `DiffDiff.Diagnostics.C81_refuted`: False of the code: the fake-group test keeps the truly treated unit in the comparison group. Unit 1 is treated with effect `tau`, the untreated units 2 and 3 have exactly parallel (flat) outcomes, yet the placebo effect of unit 2 is `-tau/2`.
* `DiffDiff.Diagnostics.C82_precision_refuted`: False of the code: reported precision. When the leave-one-out estimates are averages over the remaining treated units (unit effects `x_i`, common control trend `c`), the reported squared standard error is `s^2/(n-1)^2`, while the squared standard error of the average effect is `s^2/n`: too small by the factor `n/(n-1)^2` for three or more units.
* `DiffDiff.Prep.C83_missing_is_control_refuted`: Missing cells are silently classified: they get 0 under either rule and either direction, so a unit with unknown status becomes a control.
* `DiffDiff.Prep.C84_zero_refuted`: The staggered estimators of the same package also accept 0 as "never treated"; here 0 is a date like any other, so such units get the calendar time instead of a missing value.
* `DiffDiff.PrepRank.C87_trend_refuted`: **C87 refuted.** `outcome_trend` is not the trend of the outcome over time: with periods 0 and 10 a rise by 10 is reported as 10 per period instead of 1, and the same rows listed in another order give -10.
* `DiffDiff.Results.C88_collision_refuted`: C88, what fails without that assumption: two periods printing the same (for example 1 and '1') share their entries, and the dictionary reports the later period's numbers for both.
* `DiffDiff.TropFit.C91_level_shift_refuted`: **C91, refuted.** Without an observed untreated period for the treated unit the claim fails: the unit's fixed effect is set to 0 and the reported effect is the outcome itself, so it moves one for one with the unit of measurement's origin; no error is raised.
* `DiffDiff.TropFit.C92_missing_treatment_refuted`: **C92, refuted for missing treatment.** A row whose treatment is missing is used as an untreated observation: changing its outcome changes the estimate.
* `DiffDiff.TropJoint.C98_unit_levels_refuted`: C98, refuted for unit levels. With decay over units the joint estimate depends on the level of the units, although the model has unit effects: for every positive unit decay, adding a constant to the outcomes of one never-treated unit changes the effect.
* `DiffDiff.TropJoint.C100_missing_adoption_refuted`: C100, refuted for unbalanced panels. A panel in which every row agrees with one common adoption date is rejected as staggered when a treated unit has no row for that date.
* `DiffDiff.TropJoint.C101_center_refuted`: C101, refuted for the centre of the treated block. The documentation measures time distance to the centre of the treated block, which is halfway between its first and last period. The code's reference point lies half a period later: with two or more treated periods and a positive decay parameter the last treated period weighs more than the first, instead of the same.
* `DiffDiff.TropJoint.C103_joint_refuted`: C103, refuted for the joint method. The weights are computed once from the full panel, so the outcome of the held-out cell enters the fit that is supposed to leave it out: for every positive unit decay, two panels that differ only in the held-out outcome give different predictions for it.
* `DiffDiff.TropRust.C104_treated_units_refuted`: **C104, refuted as stated.** The compiled cross-validation gives weight to units treated in the target period (through their untreated cells), the Python one gives them none. With equal weights and the factor model off, on a panel of three periods and three units, the leave-one-out effect of the same control cell is 0 in Python and at most -1/3 in the compiled code, for every iteration limit of at least 2, every tolerance up to 1/2, every exponential and every thresholding routine that shrinks to zero.
* `DiffDiff.TropRust.C104_stored_score_refuted`: **C104, stored score, refuted.** Even with the same score routine, the stored score depends on the backend when an infinite value is selected: the compiled search scores the converted combination, the Python search the unconverted one.
* `DiffDiff.TropFit.C105_parallel_refuted`: **C105, recovery refuted.** On untreated outcomes that are exactly parallel, with equal weights and no penalty, the effect of a treatment that does nothing is reported as 1, for every positive iteration limit and every tolerance.
* `DiffDiff.SimPower.C106_callaway_refuted`: The claim "simulated power is available for every estimator `simulate_power` has a branch for" is false: a result carrying only the `overall_*` attributes, as CallawaySantAnna and SunAbraham produce, is counted as a failure, so the call always ends in "All simulations failed" (power.py 1129-1132, 1156-1157), although the estimator never failed.
* `DiffDiff.SimPower.C106_failures_refuted`: The claim "power is the share of the requested simulations that reject" is false: simulations in which the estimator raises are left out of the denominator (power.py 1140-1145, 1160). With three failures out of four and one rejection the power is 1, the standard error 0 and the interval [1, 1].
* `DiffDiff.SimPower.C106_order_refuted`: The claim "the power reported for an effect size does not depend on the other effect sizes in the list" is false: one random stream runs through the list (power.py 1012, 1059), so an effect size listed later gets other data sets.
* `DiffDiff.SimPower.C107_rmse_refuted`: The claim "`rmse` is the root mean squared error of the estimates" is false whenever two usable simulations have different estimates: the spread uses `n − 1`, the bias `n` (power.py 235, 1185), so the squared value exceeds the mean squared error.
* `DiffDiff.TropPerm.C108_subsample_refuted`: The claim "the estimate does not depend on the order of the units" is false for the tuning step when the scored control cells are subsampled (more than `max_loocv_samples` of them, trop.py 2690-2701): cells are drawn by position in the list of control cells, which is ordered by unit, so the same draw picks other cells. Here the draw is the first position.
* `DiffDiff.Trends.C109_parallel_refuted`: C109 (refuted): group means that are equal in every pre-treatment period do not give equal trends: the slopes are fitted to the rows, so a different number of rows per period in the two groups changes them when the common path is not a line.
* `DiffDiff.Trends.C109_exact_refuted`: C109 (refuted): an obvious violation need not be reported: when both groups lie exactly on lines with different slopes the standard error is zero and no verdict is given, whatever the p-value function.
* `DiffDiff.Trends.C110_parallel_refuted`: C110 (refuted): groups that move exactly in parallel are not called equivalent: when every change is the same number there is no verdict, and the margin given by the user is not reported.
* `DiffDiff.Trends.C110_gap_refuted`: C110 (refuted): identical paths do not give a zero difference: a change over a missing period counts as one change, so a group observed in fewer periods appears to move faster.
* `DiffDiff.Trends.C110_bump_refuted`: C110 (refuted): a violation inside the pre-treatment window is not detected: when the treated group jumps by `h` and returns, the mean difference is 0, and with the default margin statistics, p-values and verdict are the same for every `h`, because the margin grows with the jump.
* `DiffDiff.Trends.C111_zero_refuted`: C111 (refuted): the reported permutation p-value can be zero, although the observed arrangement is itself one of the permutations: the observed arrangement is not counted.
* `DiffDiff.Trends.C111_noperm_refuted`: C111 (refuted): without permutations the p-value is undefined but a verdict is still given, always "not plausible", even for groups with the same changes.
* `DiffDiff.Dgp.C115_universal_refuted`: C115, what does not hold: with not-yet-treated controls and the universal base period, a pre-treatment estimate on noise-free generated data is not zero (the controls include a cohort treated between the period and the base).
* `DiffDiff.Dgp.C117_noise_free_refuted`: C117 refuted: "on noise-free data SyntheticDiD returns the requested effect". With one factor whose values differ between pre and post periods and one treated unit whose loading differs from the single control's, the weights are forced to be one and the estimate is off.
* `DiffDiff.CSBoot.C118_overall_variance_refuted`: C118 is false for the overall effect as an approximation of the analytic standard error: the bootstrap keeps the cohort weights fixed and so omits the term for their estimation. Here the analytic squared standard error of the overall effect is positive, while every bootstrap draw equals the estimate, so the bootstrap standard error is zero.
* `DiffDiff.CSBoot.C118_ci_estimate_refuted`: C118 is false in the form "the bootstrap interval contains the estimate": for some weights and any number of draws the percentile interval misses it (the shift of the draws is not removed).
* `DiffDiff.SdidFit.C119_row_order_refuted`: C119 is false for a treatment column that switches on with the treatment (as other estimators of the package expect): the status of a unit is read from its first row, so the same rows are rejected in one order and analysed in another.
* `DiffDiff.SdidFit.C119_pre_before_post_refuted`: C119 is false in the form "pre periods precede the post periods": all periods that are not listed as post are used as pre periods, also later ones.
* `DiffDiff.SdidFit.C119_repeated_post_refuted`: C119 is false in the form "listing a post period twice makes no difference": it then counts twice, for any weights that sum to one (one control unit and one pre period).
* `DiffDiff.SdidFit.C120_unit_effects_refuted`: C120 is false for unit effects: adding a constant to every outcome of one control unit, in pre and post periods alike, changes the estimate, although differences within units are unchanged. The unit weights match the levels of the pre-period outcomes. Default `lambda_reg`, compiled backend, any tolerance and any number of iterations.
* `DiffDiff.SdidFit.C121_few_controls_refuted`: C121 is false in the form "when the placebo variance cannot be computed no standard error is reported": with no more control than treated units, whatever the outcomes, the standard error is 0 (`r` is the square root), the interval has length 0, and the p-value is 1.
* `DiffDiff.SdidFit.C121_no_draws_refuted`: C121 is false for `n_bootstrap = 0`, which the error message for failed bootstraps recommends "to disable bootstrap inference and rely on placebo-based standard errors": with `variance_method="bootstrap"` every valid data set then gives a ZeroDivisionError, and with `variance_method="placebo"` a standard error of 0 with p-value 1.
* `DiffDiff.SdidFit.C121_single_draw_refuted`: C121 is false in the form "one bootstrap estimate gives no inference": a single usable draw gives a standard error of 0, an interval of length 0 and a p-value of 1.
* `DiffDiff.SdidCov.C122_absorbed_refuted`: C122 is false for a treatment effect in place of a covariate effect: outcomes are exactly unit effect plus period effect plus the effect 12, the covariate has no effect on the outcome, and without covariates the estimate is 12 for any weights; with the covariate it is at most 6. The regression on covariates leaves the treatment out, so the covariate absorbs part of the effect.
* `DiffDiff.SdidCov.C122_irrelevant_refuted`: C122 is false for irrelevant covariates: adding a column of ones as covariate changes the estimate from -10 to 0. With a covariate the unit effects are removed before the unit weights are computed, without covariates they are not (C120). Default `lambda_reg`, compiled backend, any tolerance and any number of iterations.
* `DiffDiff.Plot.C123_reported_interval_refuted`: Refuted reading of C123: the interval drawn need not be the one reported. The plot recomputes intervals with the normal critical value; with any larger reported critical value (a t distribution), there are results whose drawn interval excludes zero although the reported one contains it.
* `DiffDiff.Plot.C123_marker_refuted`: Refuted reading of C123: results without a marked normalisation period (SunAbraham never stores one) fall back to period -1, so an estimated effect with a standard error is drawn as the reference period.
* `DiffDiff.Plot.C123_duplicate_refuted`: Refuted reading of C123: a table with a repeated period draws the last row twice, and the first row never.
* `DiffDiff.Plot.C123_unknown_reference_refuted`: Refuted reading of C123: a reference period that is not among the estimated effects (for MultiPeriodDiD results, every pre period) is silently ignored: the figure is the one drawn without a reference.
* `DiffDiff.LinReg.C124_zero_design_refuted`: C124 is false in the form "with the default action every design is accepted": if all columns are zero the rank is found to be zero, every column is dropped, and the call fails with an IndexError instead of returning NaN coefficients.
* `DiffDiff.DidFit.C125_absorb_refuted`: Refuted reading of C125: absorbing the unit effects of a two-period panel is not the regression on unit dummies. The estimate agrees, but the reported variance, robust or classical, is exactly half of the one from the same regression with explicit dummies (whose residuals are the same), because the absorbed effects are not counted in `n - k`; the degrees of freedom used for the test are one too few.
* `DiffDiff.Logit.C126_criterion_refuted`: Refuted reading of C126: the converged point does not minimise the criterion the code hands to the optimizer, although it is the maximum likelihood estimate. The criterion clips the index at 500, so a misclassified row never costs more than about 500: with 2000 ordinary rows and two outliers the criterion is lower far away, at a slope of 500, than at the maximum likelihood estimate 0.
* `DiffDiff.TropJointRust.C127_low_step_refuted`: C127. Claim refuted: "both backends take the same step". When the cell with the largest weight has no outcome, the compiled step is shorter: one period, two units with weights 2 and 1, the first without outcome.
* `DiffDiff.TropJointRust.C127_no_replicate_refuted`: C127. Claim refuted: "a standard error that could not be computed is reported as missing". When no replicate succeeds, the reported standard error is 0, although the compiled code itself returns NaN.
* `DiffDiff.TropJointRust.C127_passes_refuted`: C127. Claim refuted: "the compiled search scores a combination as the Python search does". On panels with `n + 1` units whose outcomes are exactly additive, every left-out untreated cell is predicted without error by the Python fit, so the score is 0. The compiled solver stops after fifty passes before it has moved: its score is at least `1 - 102 / (3 n + 1)`, as if nothing had been fitted.
* `DiffDiff.TropJointRust.C127_zero_unit_refuted`: C127. Claim refuted: "the selected tuning parameters do not depend on the compiled backend". With a treated unit that is observed only after treatment, and grids that start at `lambda_unit = 0`, the Python search keeps 0 (nothing is better than a score of 0); the compiled search cannot score 0 (the weight of that unit is `exp(-0 * inf)`, NaN) and selects the next value.
* `DiffDiff.TripleFit.C128_cluster_refuted`: C128, refuted: `cluster` gives cluster-robust standard errors. If every row is present `r` times and the copies share a cluster, the squared standard error that is reported is at most a `1/r` part of the cluster-robust variance of the same coefficient; the cluster count is right.
* `DiffDiff.TripleFit.C128_single_rows_refuted`: C128, refuted: the p-value and the interval of one fit agree about zero. With one row per cell the default method reports a zero standard error, p-value one, and the interval that contains the estimate alone.
* `DiffDiff.DatasetCache.C129_crash_refuted`: C129 is false of interrupted downloads: if the process dies after `j` characters were written, every later unforced load succeeds with the truncated text, whatever the network would have served.
* `DiffDiff.DatasetCache.C129_write_failed_refuted`: C129 is false when the disk fills up: the download that was served raises instead of returning its text, and the next unforced load succeeds with the truncated text.
* `DiffDiff.DatasetCache.C129_torn_read_refuted`: C129 is false of concurrent loads: while one process is writing, another process's unforced load succeeds with a truncated text, though the source is up and neither process fails.
* `DiffDiff.DatasetCache.C129_clear_race_refuted`: C129 is false when the cache is cleared during a load: the load ends in a missing-file error, which the loaders do not turn into the replacement data.
* `DiffDiff.Datasets.C130_castle_refuted`: C130 is false of the treatment column of a Castle Doctrine file that has the share of the year the law was in force (`cdl`): the share is passed through under the name `treated`, which is documented as 0 or 1.
* `DiffDiff.Datasets.C130_global_generator_refuted`: C130 is false of the caller's random numbers: two callers who left the global generator in different states draw the same numbers after an offline load.
* `DiffDiff.Datasets.C130_population_refuted`: C130 is false of the constructed state populations: the draw is documented by its bounds of 500 000 and 20 000 000, but 10 000 is added per calendar year rather than per year since 2000, so every state has more than 20 million inhabitants in every year.
* `DiffDiff.Datasets.C130_always_treated_refuted`: C130 is false of pre-treatment years in the constructed divorce data: the rows of Delaware are all treated.
* `DiffDiff.PowerCurve.C131_range_refuted`: The documented range (zero to three times the minimum detectable effect) and the one in the comment (to twice it) are not the range used.
* `DiffDiff.PowerCurve.C131_less_refuted`: Against the alternative of a negative effect the default table never reaches the target: its first row is `alpha` and every later row lies below.
* `DiffDiff.PowerCurve.C131_required_missing_refuted`: The required size itself need not be among the default sizes.
* `DiffDiff.PowerCurve.C131_empty_refuted`: For an effect so large that four units suffice, the default sample-size table has no rows.
* `DiffDiff.PowerCurve.C131_small_refuted`: Sizes below four are computed as if there were four units.
* `DiffDiff.PowerCurve.C131_allocation_refuted`: The table splits a size into groups differently from `sample_size`: at ten units and a share of a quarter, `sample_size` plans three treated units, the table evaluates two.
* `DiffDiff.PowerCurve.C131_true_effect_refuted`: A simulation's true effect is drawn as the line labelled as the minimum detectable effect, whatever its power: here its power is one half and the target four fifths.
* `DiffDiff.PowerCurve.C131_unordered_refuted`: With effects out of order the marker leaves the line: at 3/2, between the effects 1 and 2 with powers 1/10 and 3/10, it is drawn at 9/10.
* `DiffDiff.PowerCurve.C131_unordered_off_line_refuted`: The marked point of the last theorem is not on the drawn line.
* `DiffDiff.PowerCurve.C131_empty_plot_refuted`: Together: an effect large enough for four units leaves a table that cannot be plotted with a marked effect.
* `DiffDiff.PretrendsReport.C132_precision_refuted`: With uncorrelated estimates of a common precision the verdict is "low power" (or "never") whatever that precision: it is decided by the level, the target power and the number of pre-periods alone. The hypothesis says that a non-centrality of 4 does not give the target power, as for the usual 5% and 80%.
* `DiffDiff.PretrendsReport.C132_noise_refuted`: Noise in a pre-period the pattern does not look at makes the test look better: for violations in the last pre-period the verdict is "low power" when both standard errors are 1 and "fairly sensitive" when the other one is 23, while the minimum detectable violation is the same.
* `DiffDiff.PretrendsReport.C132_custom_refuted`: The documented pattern "custom" cannot be used through the convenience functions: there is no way to give the weights, and every call with valid levels is refused.
* `DiffDiff.PretrendsReport.C132_target_refuted`: The target line of a plotted curve is at the function's own default, not at the curve's target: unless the caller repeats the target (or passes `None`), the two plots of one curve disagree. Here the curve was computed for 9/10, the marker sits at power 9/10, and the line labelled as target is at 4/5.
* `DiffDiff.PretrendsReport.C132_single_refuted`: Plotting a single result draws no curve and no marker.
* `DiffDiff.PlotMore.C133_honest_same_refuted`: C133, as promised, is refuted: "each period of the plot carries its own honest interval". `HonestDiD.fit` never fills in per-period bounds, so for every fit the plot draws one and the same interval, that of the weighted average effect, around every period.
* `DiffDiff.PlotMore.C133_honest_plot_refuted`: C133, as promised, is refuted: "the result of a fit can be plotted". Effects 0 and 10 average 5 with honest interval [3, 7] at M = 0; both estimates lie outside it, and the plot fails with a ValueError.
* `DiffDiff.PlotMore.C133_sensitivity_order_refuted`: C133, as promised, is refuted for a grid that is not increasing: with `M_grid = [1, 0]` and zero inside the interval exactly from M = 1 on, the line is drawn at 0 although the row M = 0 is significant.
* `DiffDiff.PlotMore.C133_groups_colours_refuted`: C133, as promised, is refuted: "cohorts can be told apart by colour". With more than ten cohorts two of them share a colour.
* `DiffDiff.PlotMore.C133_groups_level_refuted`: C133, as promised, is refuted: "the bars are the confidence intervals of the results". The plot uses its own level (5 % unless given), so results fitted at a level with another critical value `z'` show other intervals than they report.
* `DiffDiff.TropBoot.C134_window_refuted`: C134, refuted: a draw of the units can lose periods of an unbalanced panel while the number of treated periods stays that of the whole data. Here the draw 0, 1, 1 leaves periods 0 to 2 and three treated periods, so no period counts as before treatment and the replicate is dropped, although the drawn units identify the effect and the compiled bootstrap computes it, on the same units.
* `DiffDiff.TropBoot.C134_undrawn_refuted`: C134, refuted: a unit whose treatment is missing throughout is a control unit of the fit, but no replicate contains it: the bootstrap resamples fewer units than were estimated on.
* `DiffDiff.TwfeWarn.C135_late_entry_refuted`: C135, refuted: a treated unit that enters the panel late is reported as a second treatment cohort although no unit changes its treatment status.
* `DiffDiff.SunAb.C136_varying_pre_refuted`: C136 does not extend to the default, varying base period: with it a pre-treatment effect of Callaway-Sant'Anna is a one-period change and not the Sun-Abraham coefficient of the same cell.
* `DiffDiff.SunAb.C136_not_yet_refuted`: C136 does not extend to not-yet-treated controls: with that setting on both sides the effects of the same cell differ.
* `DiffDiff.SunAb.C136_anticipation_refuted`: C136 for the overall effect does not extend to `anticipation > 0`: Callaway-Sant'Anna then includes the anticipation periods, Sun-Abraham does not.
* `DiffDiff.SunAb.C136_horizon_refuted`: C136 needs the horizon: cells more than 20 periods after treatment get no column and are merged with the reference period. Here an effect 21 periods after treatment, the only one, makes every reported coefficient -1/2 although the group-time effect of Callaway-Sant'Anna is 0 in each of those cells.
* `DiffDiff.Block.C137_one_number_refuted`: C137, refuted in general: with more than one pre period the two families of estimators return different numbers on the same balanced panel with one cohort (21/4 against 25/4).
* `DiffDiff.Block.C137_twfe_refuted`: C137, refuted for `TwoWayFixedEffects`: in a two-period panel with `n1` treated and `n0` control units it reports the fraction `n0 / (n1 + 2 n0)` of the difference in differences, hence at most half of it, and one third with equally many treated and control units.
* `DiffDiff.Reports.C138_nan_refuted`: C138 is false of the honest report: results without an average standard error have a NaN interval under relative magnitudes, and the report says that the effect is robust and "remains NEGATIVE", whatever the estimates, the weights and M.
* `DiffDiff.Reports.C138_negative_M_refuted`: C138 is false of the honest report: for a negative M, which `fit` accepts, the ends of the interval cross, and for M negative enough the report calls every effect POSITIVE, also when the estimate is negative.
* `DiffDiff.Reports.C138_robust_refuted`: The printed breakdown can exceed the true one: with the true threshold 2^-25 on the grid 0, 1 the report says "robust up to 2^-21", although at the smaller M = 2^-22 the interval contains zero.
* `DiffDiff.Reports.C138_never_refuted`: C138 is false of the sensitivity report: if no value of the (non-empty) grid is significant, M = 0 among them, the report says "Result is robust to violations up to M = 0" although the interval at M = 0 contains zero.
* `DiffDiff.Reports.C138_always_refuted`: C138 is false of the sensitivity report: "always significant" is printed for every grid that ends below the breakdown, although from the breakdown on the interval contains zero.
* `DiffDiff.Reports.C138_nan_always_refuted`: C138 is false of the sensitivity report: NaN intervals (no average standard error) give "always significant" for every grid.
* `DiffDiff.Reports.C138_placebo_refuted`: C138 is false of the placebo report at every other level: whenever the p-value lies between 0.05 and the level used, the sentence quotes the wrong relation to 0.05.
* `DiffDiff.Reports.C138_placebo_nan_refuted`: C138 is false of the placebo report: a test without a p-value (NaN, for instance from a zero standard error) is reported as "No significant placebo effect detected (p >= 0.05). This is consistent with the parallel trends assumption", at every level.
* `DiffDiff.Reports.C138_power_refuted`: C138 is false of the pre-trends report: "Would need violations of inf" is printed although a finite violation has the target power.
* `DiffDiff.Bacon.C139_bacon_refuted`: C139, the restriction is needed: counting periods from the first treatment date makes the first cohort count as never treated (and the comparison groups change accordingly).
* `DiffDiff.CS.C139_cs_refuted`: C139, the restriction is needed: with periods counted from the first treatment date (5 becomes 0) the first cohort turns into never-treated controls without notice, its effects disappear and those of the other cohort change (7/3 instead of 3 at its treatment date, 4 instead of 9/2 one period later); with periods counted back from the end the cohorts become negative, and both are dropped.
* `DiffDiff.SunAb.C139_sunab_refuted`: C139, the restriction is needed: counting periods from the treatment date leaves no treated cohort.
* `DiffDiff.Bacon.C140_bacon_effects_refuted`: C140, balance is needed: on a panel with a gap, adding a constant to the outcomes of one unit changes the comparison (0 to -1/2) and the two-way coefficient.
* `DiffDiff.SunAb.C140_sunab_effects_refuted`: C140, balance is needed: if one row is missing, adding a constant to the outcomes of one unit changes the estimate.
* `DiffDiff.CS.C141_other_cohorts_refuted`: C141, not-yet-treated controls are read with hindsight: units that are later treated serve as controls before their treatment, so with that option the effect does depend on other cohorts. Here, changing the outcome of the unit treated in period 4 changes the effect of the cohort treated in period 2 from 3 to 5/2.
* `DiffDiff.TropBoot.C142_names_refuted`: C142, refuted: the replicates depend on the names of the units. The same outcomes and treatments, with the units called 12, 13, 14 instead of 2, 10, 11 in the same order, give the same point estimate and, for the same draw of every unit once, different replicates: the copies are sorted as text, "10_0" before "2_2", while the weights are stored by position. Under the second naming the replicate is the estimate on the drawn units; under the first it is not.
* `DiffDiff.TropBoot.C142_aborts_refuted`: C142, refuted: the bootstrap can abort a fit that was otherwise computed. The data `silent` are accepted; unit 1 has outcomes but no treatment values. Every draw then has fewer units than the stored matrices, and with `lambda_unit = 0` the first replicate raises an exception that is not caught.
* `DiffDiff.TropBoot.C142_periods_refuted`: C142, refuted: in unbalanced data a draw without some period of the data is dropped, although the compiled bootstrap computes an estimate for the same draw.
* `DiffDiff.Svd.C143_not_least_squares_refuted`: C143. Counterexample to "a result without NaN is a least-squares fit": two columns with `R₂₂/R₁₁ ≈ 1.25e-7` pass the rank check, but their second singular value is `8e-8` times the first and is cut off by the solver. The outcome is an exact linear combination of the columns; with either backend and the default options the call succeeds with both coefficients zero, residuals equal to the outcome, and a covariance matrix without NaN.
* `DiffDiff.Svd.C143_skip_refuted`: C143. Counterexample to backend independence with `skip_rank_check=True`: for a collinear design the compiled backend returns a covariance matrix of NaN, the interpreted one raises an error.
* `DiffDiff.Svd.C143_units_refuted`: C143. Counterexample to "the units of a covariate do not matter": the same regression with the covariate measured in units `10^8` times smaller (its column multiplied by `10^8`) reports NaN for the intercept and the treatment, whose coefficient was 3 before, because the rank check compares the columns' lengths with the longest one.
* `DiffDiff.CSRows.C144_row_order_refuted`: C144. Claim refuted: "the results do not depend on the order of the rows". A first_treat column that changes within a unit is accepted without a message, the first row decides, and reversing the rows turns an overall effect of 7 into -1.
* `DiffDiff.CSRows.C144_never_refuted`: C144. Claim refuted: "data with a never-treated unit are not rejected for lack of one". Cohorts are read from the first row with a value, the check from the first row: if that lacks the value, `fit` says there are no never-treated units, and the reversed rows are estimated.
* `DiffDiff.RowOrder.C145_mixed_cohort_refuted`: Refuted reading of C145: without the condition on the cohorts the order matters. Moving the second row of a unit with two different first treatment periods to the front changes the number of treated and of control units.
* `DiffDiff.TwfeFit.C146_did_refuted`: Refuted reading of C146: in the textbook panel the reported effect is the difference in differences. It never is, unless that is zero.
* `DiffDiff.TwfeFit.C146_control_noise_refuted`: Refuted reading of C146: the standard error measures the noise of both arms. Two panels with the same changes of the treated units and the same mean change of the controls get the same effect, standard error, t statistic, p-value and interval, however differently the individual controls behave.
* `DiffDiff.TwfeFit.C146_zero_se_refuted`: Refuted reading of C146: noisy data give a positive standard error. Whenever the treated units all change by the mean change of the controls, the reported standard error is zero and the interval a point, however dispersed the controls are.
* `DiffDiff.TwfeFit.C146_no_controls_refuted`: Refuted reading of C146: without control units no effect is reported. If every unit is treated, the interaction is the post dummy, which the period effects absorb; the estimator nevertheless returns a result, with effect zero.
* `DiffDiff.TropCv.C147_unseeded_refuted`: **C147, refuted without a seed.** The default is no seed. In the two-step method every evaluation then draws its own cells, and the search can choose a combination whose leave-one-out error is larger than that of another grid combination on every single cell.
* `DiffDiff.MultiFit.C148_zero_se_refuted`: C148, consistent inference fails: when the outcome is an exact combination of the regressors every standard error is zero; a period's nonzero effect is then reported as certain (infinite t, p-value 0) while the average, even over that single period, has NaN for t, p-value and interval.
* `DiffDiff.MultiFit.C148_absorbed_refuted`: C148, agreement of the inference fails: if absorbed effects use up the degrees of freedom, the two-period report has the estimate and the positive standard error of the basic estimator, but NaN as p-value and interval where the basic estimator uses the normal distribution.
* `DiffDiff.MultiFit.C148_saturated_refuted`: C148, agreement of the errors fails: with one row per cell and `robust=False` the multi-period estimator raises (division by zero in a robust covariance matrix it then would not use) while the basic estimator reports the estimate with standard error NaN.
* `DiffDiff.BaconRows.C149_row_order_refuted`: C149. Claim refuted: "the order of the rows does not matter". With a unit recorded with two first treatment periods the first of its rows decides whether there is a never-treated unit, and thereby whether there are comparisons at all.
* `DiffDiff.BaconRows.C149_duplicates_refuted`: C149. Claim refuted: "data with two rows for a unit and period are rejected". CallawaySantAnna rejects them; here both rows enter the means, the comparison reports 6, the regression 85/14, and the decomposition is off by the difference.
* `DiffDiff.DidFull.C150_absorb_refuted`: C150, refutation. Absorbing the units is not the regression with unit effects when the panel is unbalanced: for an outcome that is exactly an effect `τ` of the treatment (no other difference between units or periods), `fixed_effects=["unit"]` reports `τ` and `absorb=["unit"]` reports `3τ/4`.
* `DiffDiff.DidFull.C150_absorb_order_refuted`: C150, refutation. The order of the absorbed columns matters in an unbalanced panel: on the same data `absorb=["unit", "time"]` reports `3τ/4` and `absorb=["time", "unit"]` reports `11τ/12`.
* `DiffDiff.DidFull.C150_missing_label_refuted`: C150, refutation. Missing labels of a fixed effect are not rejected, and the report can be wrong: with an effect `τ` of the treatment and a difference `δ` between unit 1 and the other units the complete labels give `τ`; when the labels of unit 0 are missing the call returns `τ + δ/2`.
* `DiffDiff.WildLin.C151_no_effect_refuted`: C151, refutation. "Data without an effect do not look significant" is false: when the outcome is exactly group and period differences plus functions of the covariates and fixed effects (for example an outcome that is always 0), the call reports effect 0 with the t statistic undefined and the smallest possible p-value.
* `DiffDiff.WildLin.C151_no_power_refuted`: C151, refutation. "A large effect is detected" is false: with one row per cluster, no covariates or fixed effects, and sign weights drawn in pairs `s`, `-s` (for example all sign vectors), the reported p-value is at least half the share of replicates with a positive standard error, whatever the outcomes.
* `DiffDiff.WildLin.C151_redundant_refuted`: C151, refutation. "A call that works with analytical inference works with the wild bootstrap" is false: with a redundant column (here a covariate given twice, in different units) the analytical call returns a result and every wild bootstrap call fails, whatever clusters, weight type and draws.
* `DiffDiff.WildTwfe.C152_no_effect_refuted`: C152, refutation. "Data without an effect do not look significant" is false: on a balanced panel whose outcome is exactly unit effects plus period effects plus a linear function of the covariates, the call reports effect 0 with the t statistic undefined and the smallest possible p-value.
* `DiffDiff.WildTwfe.C152_redundant_refuted`: C152, refutation. "A call that works with analytical inference works with the wild bootstrap" is false: on a balanced panel, a further covariate that only depends on the unit and the period (a region code, a trend) is dropped by the analytical call with a warning and leaves its report, while every wild bootstrap call fails.
* `DiffDiff.SdidFit.C153_sdid_compiled_refuted`: C153 is false for the compiled weight routine, whose step size is fixed: with the default `lambda_reg = 0` and 1000 iterations, the same data give the estimate 0 when the outcome is recorded in percentage points and at most -0.025 when it is recorded as a fraction (1/100 of that). In the small units the 1000 steps hardly leave the equal weights, so that the change of the second control unit is subtracted with a weight of at least 1/4; in the large units its weight is 0. Any tolerance.
* `DiffDiff.TropFit.C153_trop_refuted`: C153 is false for TROP with fixed tuning parameters: the same panel recorded in units ten times smaller does not give ten times the effect. `lambda_time = 0`, `lambda_unit = 1` and `lambda_nn = 0` are members of the default grids; the distance between units is measured in units of the outcome, so `lambda_unit` has to change with them. Any iteration limit and tolerance, any thresholding routine that scales.
* `DiffDiff.HonestDid.C154_combined_refuted`: C154 is false of the combined method with other weights: its one M is both a multiple of the largest pre-period effect and a bound on second differences in units of the outcome, so neither the same M nor M in the new units gives the same set (second difference of three effects, units four times smaller).
* `DiffDiff.HonestDid.C154_smooth_breakdown_refuted`: In the right units every effect is called robust to any violation: if the smoothness interval excludes zero for M = 0 and for some positive M, then measuring the outcome in small enough units makes the breakdown search report that the effect is always significant.
* `DiffDiff.TwfeFit.C155_twfe_refuted`: C155. TwoWayFixedEffects: exchanging the labels of the groups in the textbook two-period panel does not turn the estimate round when the arms have different sizes and the difference in differences is not zero.
* `DiffDiff.TripleFit.C155_triple_dr_refuted`: C155. The default method with a trimmed share: exchanging the labels of the groups does not turn the estimate round.
* `DiffDiff.TripleFit.C155_triple_ipw_refuted`: C155. Inverse weighting: exchanging the two periods changes the standard error.
* `DiffDiff.SoftSvd.C157_backends_nonfinite_refuted`: "Both backends return the same matrix" is false when an entry is not finite: Python replaces that entry by 0 and goes on, the compiled routine returns the zero matrix. Here the entries are NaN and 5 and the threshold is 2: `[0, 3]` against `[0, 0]`, from any decomposition.
* `DiffDiff.TropDescent.C158_documented_objective_refuted`: The documented objective `Σ W (R − L)² + λ‖L‖_*` (trop.py 2436-2437, 2498; trop.rs 628) is not what the low-rank step minimises: on one cell with weight 1, residual 3 and λ = 1 the routine returns 2, where the documented objective is 3, while the value 5/2 gives 11/4. The routine minimises `½ Σ (W / max W)(R − L)² + λ‖L‖_*` (`C158_fixed_point`): twice the documented penalty, and relative to the largest weight.
* `DiffDiff.TropDescent.C158_backends_refuted`: The two backends penalise differently: on one cell of weight 1/2, residual 3 and λ = 1 the Python routine stays at 2 and the compiled step at 1, because Python divides the weights by their maximum and keeps λ, while the compiled code thresholds at λ / max W.

## 7. Axioms per theorem

Output of `#print axioms` for every theorem named in `MANIFEST.json`, grouped.

**no axioms** (1): Params.C20_numbers_history_independent

**Classical.choice, Quot.sound, propext** (1058): Backend.C58_python, Backend.C58_rust, Backend.C58_auto, Backend.C58_all_or_nothing, Bacon.C31_weights_positive, Bacon.C31_sum_one, Bacon.C31_types_sum_one, Bacon.C31_type_average, Bacon.C31_type_absent, Bacon.C33_earlier_vs_later_window, Bacon.C33_later_vs_earlier_window, Bacon.C33_absent, Bacon.C33_present, Bacon.C33_window_exact, Bacon.C30_bacon, BaconRows.C149_repeats, BaconRows.C149_row_order, BaconRows.C149_row_order_any, BaconRows.C149_wide, BaconRows.C149_wide_exists, BaconRows.C149_labels, BaconRows.C149_row_order_refuted, BaconRows.C149_duplicates_refuted, Bacon.C140_bacon, Bacon.C140_bacon_effects, Bacon.C140_bacon_effects_refuted, Bacon.C139_bacon, Bacon.C139_bacon_refuted, Bacon.C32_goodman_bacon, Bacon.C32_exact_partial, Bacon.C32_single_cohort_partial, Bacon.C32_refuted, Bacon.C33_clean_controls, Bacon.C33_constant_effect, Block.C137_did, Block.C137_multi, Block.C137_bacon, Block.C137_callaway, Block.C137_sunab, Block.C137_difference, Block.C137_one_number_refuted, Block.C137_twfe_refuted, BootStats.C27_interval_ordered, BootStats.C27_interval_nested, BootStats.C27_interval_range, BootStats.C27_interval_perm, BootStats.C27_pvalue_range, BootStats.C27_pvalue_symmetric_partial, BootStats.C27_zero_estimate_refuted, BootStats.C27_too_few_finite, BootStats.C27_nonfinite_ignored, BootStats.C27_reported, BootStats.C72_small_p_excludes_zero_partial, BootStats.C72_refuted, BootWeights.C28_rademacher, BootWeights.C28_mammen, BootWeights.C28_webb, BootWeights.C28_python_rust, BootWeights.C28_rust_moments, BootWeights.C28_mammen_documented, BootWeights.C28_iid_covariance, BootWeights.C28_exact_bootstrap_variance, BootWeights.C29_schedule_independent, BootWeights.C29_deterministic, BootWeights.C29_partial_rows_are_prefixes, BootWeights.C29_more_iterations, BootWeights.C29_consecutive_seeds, CS.C25_overall, CS.C25_overall_nan, CS.C25_overall_bounds, CS.C25_constant, CS.C24_constant_effect_overall, CS.C25_event, CS.C25_event_complete, CS.C25_group, CS.C26_centred, CS.C26_constant_weights, CS.C26_draw_linear, CS.C26_bootstrap_variance, CS.C26_variance, CS.C26_ipw_variance, CS.C26_ipw_refuted, CS.C26_single_pair_refuted, CS.C26_single_pair_le, CS.C26_wif_homogeneous, CS.C26_wif_centred, CS.C26_overall_homogeneous, CSBoot.C118_weights, CSBoot.C118_overall, CSBoot.C118_event, CSBoot.C118_group, CSBoot.C118_gt, CSBoot.C118_single, CSBoot.C118_points, CSBoot.C118_reported, CSBoot.C118_exact, CSBoot.C118_shift, CSBoot.C118_overall_variance_refuted, CSBoot.C118_ci_estimate_refuted, CS.C141_data_used, CS.C141_other_cohorts, CS.C141_later_data, CS.C141_later_data_universal, CS.C141_other_cohorts_refuted, CS.C22_post_same, CS.C22_observed, CS.C22_reported, CS.C22_post_effects_same, CS.C22_overall_same, CS.C22_group_same, CS.C23_disjoint, CS.C23_never_included, CS.C23_treated_exact, CS.C23_never_only, CS.C23_not_yet_exact, CS.C23_controls_clean_partial, CS.C23_anticipation_refuted, CS.C23_universal_refuted, CS.C23_no_never_rejected, CS.C24_identifies, CS.C24_never_treated, CS.C24_not_yet_treated, CS.C24_invariant, CS.C24_anticipation_refuted, CS.C30_cs_effect, CS.C30_cs_groups, CS.C30_cs_effects_partial, CS.C30_cs_overall, CS.C30_cs_control_count, CS.C30_cs_universal, CS.C30_cs_refuted, CS.C30_cs_treated_count, CS.C71_odds_bounded, CS.C71_ipw_weights, CS.C71_ipw_identifies, CS.C71_ipw_shift, CS.C71_dr_outcome_model, CS.C71_dr_propensity_model, CS.C71_reg_dr_shift, CS.C71_centred, CS.C71_reg_value, CS.C71_collinear_refuted, CSRows.C144_row_order, CSRows.C144_missing_outcomes, CSRows.C144_wide, CSRows.C144_duplicates, CSRows.C144_labels, CSRows.C144_row_order_refuted, CSRows.C144_never_refuted, CS.C140_cs, CS.C140_cs_aggregate_var, CS.C140_cs_bootstrap, CS.C139_cs_effect, CS.C139_cs, CS.C139_cs_overall_var, CS.C139_cs_refuted, DatasetCache.C129_crash_refuted, DatasetCache.C129_write_failed_refuted, DatasetCache.C129_torn_read_refuted, DatasetCache.C129_clear_race_refuted, DatasetCache.C129_concurrent, DatasetCache.C129_concurrent_load, Datasets.C130_castle_effect, Datasets.C130_divorce_effect, Datasets.C130_mpdta_effect, Datasets.C130_card_krueger, Datasets.C130_cohort, Datasets.C130_castle, Datasets.C130_castle_refuted, Datasets.C130_divorce_first, Datasets.C130_divorce_given, Datasets.C130_divorce_consistent, Datasets.C130_construct_card_krueger, Datasets.C130_construct_castle, Datasets.C130_construct_divorce, Datasets.C130_construct_mpdta, Datasets.C130_population_refuted, Datasets.C130_always_treated_refuted, Datasets.C130_names, Dgp.C116_cells, Dgp.C116_reg_ipw, Dgp.C116_dr, Dgp.C116_exact, Dgp.C116_covariates, Dgp.C113_did, Dgp.C113_accepted, Dgp.C113_did_exact, Dgp.C113_panel, Dgp.C113_event, Dgp.C113_trends, Dgp.C114_period_effect, Dgp.C114_exact, Dgp.C114_default, Dgp.C117_weights, Dgp.C117_fit, Dgp.C117_exact, Dgp.C117_noise_free_refuted, Dgp.C112_complete, Dgp.C112_counterfactual, Dgp.C112_staggered, Dgp.C112_factor_ddd, Dgp.C112_share, Dgp.C112_checks, Dgp.C112_event_time, Dgp.C112_factor_draws, Dgp.C115_att, Dgp.C115_exact, Dgp.C115_reported, Dgp.C115_overall, Dgp.C115_default_cohorts, Dgp.C115_universal_refuted, Diagnostics.C46_post_outcomes_irrelevant, Diagnostics.C46_pre_rows_only, Diagnostics.C46_splits_pre_window, Diagnostics.C46_default_window, Diagnostics.C45_range, Diagnostics.C45_single_draw, Diagnostics.C45_all_failed, Diagnostics.C45_same_number, Diagnostics.C45_nan_effect_refuted, Diagnostics.C53_placebo_refuted, Diagnostics.C80_refuted, Diagnostics.C80_multi_period_refuted, Diagnostics.C81_refuted, Diagnostics.C81_partial, Diagnostics.C82_effects, Diagnostics.C82_order, Diagnostics.C82_runs_iff, Diagnostics.C82_single_unit, Diagnostics.C82_precision_refuted, Diagnostics.C80_dispatch, Did2x2.C10_att_is_difference_of_means, Did2x2.C10_att_exists, Did2x2.C10_fitted_are_cell_means, Did2x2.C10_empty_cell_not_identified, Did2x2.C10_additive_effect, Did2x2.C10_antisymmetric, Did2x2.C10_covariates_recover, Did2x2.C64_absorb_recovers_partial, Did2x2.C64_absorb_unbalanced_refuted, DidFit.C125_coefficient, DidFit.C125_robust, DidFit.C125_cluster, DidFit.C125_classical, DidFit.C125_point, DidFit.C125_se_robust, DidFit.C125_se_classical, DidFit.C125_se_cluster, DidFit.C125_inference, DidFit.C125_fails, DidFit.C125_panel, DidFit.C125_absorb_refuted, DidFull.C150_controls, DidFull.C150_recovers, DidFull.C150_listing, DidFull.C150_levels, DidFull.C150_absorb_refuted, DidFull.C150_absorb_order_refuted, DidFull.C150_missing_label_refuted, DidFull.C150_adjusted, DidFull.C150_units, DidFull.C150_absorb, DidFull.C150_missing_level, DidFull.C150_plain, DidFull.C150_errors, DidFull.C150_runs, DidFull.C150_report, DidFull.C150_row_order, DidFull.C150_unidentified, DidFull.C153_did, TwfeFit.C153_twfe, WildLin.C153_wild, WildLin.C153_did_wild, WildTwfe.C153_twfe_wild, DidFull.C155_groups, DidFull.C155_periods, DidFull.C155_both, DidFull.C155_roles, DidFull.C155_sign, Formula.C21_star, Formula.C21_colon, Formula.C21_only_columns, Formula.C21_two_interactions_refuted, Formula.C21_covariate_first_refuted, HonestDid.C39_nested, HonestDid.C39_monotone, HonestDid.C39_exact_range_partial, HonestDid.C39_default_weights, HonestDid.C39_exact_range_refuted, HonestDid.C41_accuracy, HonestDid.C41_terminates, HonestDid.C41_tolerance_needed, HonestDid.C41_grid, HonestDid.C41_grid_none, HonestDid.C41_rm, HonestDid.C42_cs_partial, HonestDid.C42_refuted, HonestDid.C42_kept, HonestDid.C39_fit_cs, HonestDid.C77_none_refuted, HonestDid.C77_none_partial, HonestDid.C77_negative_M_refuted, HonestDid.C40_refuted, HonestDid.C40_finite_partial, HonestDid.C40_promised_set_bounded, HonestDid.C40_never_significant, HonestDid.C40_combined, HonestDid.C40_solver_exists, HonestDid.C159_error, HonestDid.C159_default_grid, HonestDid.C159_breakdown, HonestDid.C159_rm_rows, HonestDid.C159_two_searches, HonestDid.C154_units_rm, HonestDid.C154_units_smooth, HonestDid.C154_sign, HonestDid.C154_breakdown_units, HonestDid.C154_breakdown_sign, HonestDid.C154_event_order, HonestDid.C154_units_combined, HonestDid.C154_combined_refuted, HonestDid.C154_smooth_breakdown_refuted, Inference.C16_consistent, Inference.C16_nested, Inference.C16_sign_symmetric, Inference.C16_stars_levels, Inference.C17_cs, Inference.C17_trop_multiperiod, Inference.C17_infinite_se, Inference.C17_sa_triple_sdid_refuted, Inference.C17_regression_zero_se_refuted, Inference.C68_same_distribution_partial, Inference.C68_interval_contradicts_p_refuted, Inference.C140_inference, LinReg.C124_pair, LinReg.C124_pair_span, LinReg.C124_pair_outcome, LinReg.C124_reparametrize, LinReg.C124_treatment, LinReg.C124_rescale, LinReg.C124_outcome, LinReg.C124_units, LinReg.C124_span, LinReg.C124_predict, LinReg.C124_classical_psd, LinReg.C124_zero_design_refuted, LinReg.C124_intercept, LinReg.C124_call_ids, LinReg.C124_adjusted, LinReg.C124_identified, LinReg.C124_pruning, LinReg.C124_runs, LinReg.C153_regression, LinReg.C124_same_span, LinReg.C124_same_runs, LinReg.C124_outcome_rank, LinReg.C155_regression, LinReg.C155_regression_runs, Logit.C126_gradient, Logit.C126_range, Logit.C126_moments, Logit.C126_recode, Logit.C126_separation, Logit.C126_mle, Logit.C126_strata, Logit.C126_ipw_strata, Logit.C126_dr_strata, Logit.C126_criterion_refuted, MultiFit.C148_controls, MultiFit.C148_runs_full, MultiFit.C148_absorb, MultiFit.C148_counts, MultiFit.C148_estimable, MultiFit.C148_runs_iff, MultiFit.C148_effects, MultiFit.C148_recovers, MultiFit.C148_inference, MultiFit.C148_average, MultiFit.C148_reference, MultiFit.C148_two_periods, MultiFit.C148_row_order, MultiFit.C148_zero_se_refuted, MultiFit.C148_absorbed_refuted, MultiFit.C148_saturated_refuted, MultiFit.C148_same_controls, MultiFit.C148_row_order_rank, MultiFit.C148_reference_rank, MultiFit.C148_redundant_fixed, MultiFit.C148_controls_rank, MultiFit.C148_recovers_rank, MultiFit.C148_estimable_full, MultiPeriod.C59_average, MultiPeriod.C59_psd, MultiPeriod.C76_classification, MultiPeriod.C76_refused, MultiPeriod.C76_interaction_position, MultiPeriod.C76_gap, MultiPeriod.C76_period_effect, MultiPeriod.C76_recovers, LinReg.C155_pair, MultiFit.C155_multi, Ols.C11_residuals_orthogonal, Ols.C11_iff_minimises, Ols.C11_fitted_unique, Ols.C11_coefficients_unique, Ols.C11_equivariant, Ols.C11_row_order, Ols.C11_column_order, Ols.C12_nan_iff_dropped, Ols.C12_order_preserved, Ols.C12_vcov_nan, Ols.C12_predict, Ols.C12_predict_ignores_dropped, Ols.C12_fit_unchanged, Ols.C12_partition, Ols.C12_degrees_of_freedom, Ols.C12_rank_bounds, Ols.C13_skip_returns_nan_refuted, Params.C18_documented_accepted, Params.C18_set_then_get, Params.C18_round_trip, Params.C18_last_write_wins, Params.C19_rejected_prefix_partial, Params.C19_honest_invalid_state_refuted, Params.C19_unvalidated_option_refuted, Params.C18_every_keyword, Params.C18_pretrends_power, Params.C19_honest_accepts, Params.C70_direct_partial, Params.C70_honest_default_refuted, Params.C20_first_use_partial, Diagnostics.C45_textbook_valid, Diagnostics.C45_valid_partial, Diagnostics.C45_vs_textbook, Diagnostics.C45_valid_refuted, PlotMore.C133_honest_marks, PlotMore.C133_honest_own, PlotMore.C133_honest_same_refuted, PlotMore.C133_honest_defined, PlotMore.C133_honest_plot_refuted, PlotMore.C133_sensitivity_line, PlotMore.C133_sensitivity_order_refuted, PlotMore.C133_groups_lines, PlotMore.C133_groups_default, PlotMore.C133_groups_points, PlotMore.C133_groups_level_refuted, PlotMore.C133_bacon_averages, PlotMore.C133_bacon_bars, PlotMore.C133_bacon_summary, Plot.C123_points, Plot.C123_order, Plot.C123_fails, Plot.C123_reference, Plot.C123_positions, Plot.C123_shade, Plot.C123_reported_interval_refuted, Plot.C123_marker_refuted, Plot.C123_duplicate_refuted, PowerCurve.C131_rows, PowerCurve.C131_defined, PowerCurve.C131_default_grid, PowerCurve.C131_first, PowerCurve.C131_range_refuted, PowerCurve.C131_reaches, PowerCurve.C131_less_refuted, PowerCurve.C131_size_rows, PowerCurve.C131_size_defined, PowerCurve.C131_size_monotone, PowerCurve.C131_default_sizes, PowerCurve.C131_empty_refuted, PowerCurve.C131_small_refuted, PowerCurve.C131_allocation_refuted, PowerCurve.C131_plot_data, PowerCurve.C131_marker, PowerCurve.C131_true_effect_refuted, PowerCurve.C131_unordered_refuted, PowerCurve.C131_unordered_off_line_refuted, PowerCurve.C131_plot_defined, Power.C44_size, Power.C44_effect_monotone, Power.C44_mde_partial, Power.C44_mde_refuted, Power.C44_mde_less_refuted, Power.C44_units_monotone, Power.C44_sample_size_panel, Power.C44_sample_size_partial, Power.C44_sample_size_bound, Power.C44_sample_size_refuted, Power.C44_sample_size_minimal, Power.C44_panel_size_refuted, Power.C44_reported_power_partial, Power.C44_reported_power_refuted, Power.C79_two_periods_partial, Power.C79_panel_refuted, Power.C79_mde_too_small, Power.C79_split_ignored, Power.C44_validate, Power.C44_required_n, Power.C44_defined, Power.C44_sample_size_defined, Prep.C47_exact, Prep.C47_missing_period_refuted, Prep.C47_balanced, Prep.C47_idempotent, Prep.C48_rows_survive, Prep.C48_grid, Prep.C48_fill_value, Prep.C48_methods, Prep.C48_fill_none, Prep.C49_accepts, Prep.C49_lossless, Prep.C49_read_back, Prep.C49_sorted, Prep.C49_repeated_column_refuted, Prep.C83_indicator, Prep.C84_event_time, Prep.C85_summary_is_estimate, Prep.C85_line_present, Prep.C86_cohorts, PrepRank.C50_rejects, PrepRank.C50_candidates, PrepRank.C50_sorted, PrepRank.C50_top, PrepRank.C50_scores_partial, PrepRank.C50_missing_covariate_refuted, PrepRank.C87_candidates, PrepRank.C87_score, PrepRank.C50_rmse, PrepRank.C50_outcome_score, PrepRank.C50_covariate_score, PrepRank.C87_fields, PrepRank.C87_trend_refuted, PrepValidate.C51_valid_iff, PrepValidate.C51_raises, PrepValidate.C51_no_raise_partial, PrepValidate.C51_type_error_refuted, PrepValidate.C51_estimable, PrepValidate.C51_summary, PrepValidate.C51_warnings, PrepValidate.C51_multi_period_refuted, Pretrends.C43_unit_partial, Pretrends.C43_unit_refuted, Pretrends.C43_length, Pretrends.C43_size, Pretrends.C43_monotone, Pretrends.C43_mdv_power, Pretrends.C43_mdv_finite, Pretrends.C43_mdv_finite_refuted, Pretrends.C43_single_linear, Pretrends.C43_power_at_partial, Pretrends.C43_power_at_refuted, Pretrends.C43_default_fit, Pretrends.C43_adequate_iff, Pretrends.C43_curve, Pretrends.C43_curve_grid, Pretrends.C43_extract_multi, Pretrends.C78_refuted, Pretrends.C78_name_refuted, Pretrends.C78_partial, Pretrends.C43_extract_events, Pretrends.C43_validate, PretrendsReport.C43_curve_top, PretrendsReport.C132_scale, PretrendsReport.C132_verdict, PretrendsReport.C132_agree, PretrendsReport.C132_precision_refuted, PretrendsReport.C132_noise_refuted, PretrendsReport.C132_convenience, PretrendsReport.C132_custom_refuted, PretrendsReport.C132_plot, PretrendsReport.C132_target_refuted, PretrendsReport.C132_target_none, Reports.C138_leave_one_out, Reports.C138_honest, Reports.C138_negative_M_refuted, Reports.C138_robust_partial, Reports.C138_robust_refuted, Reports.C138_never_refuted, Reports.C138_always_partial, Reports.C138_always_refuted, Reports.C138_nan_always_refuted, Reports.C138_placebo_partial, Reports.C138_placebo_refuted, Reports.C138_placebo_nan_refuted, Reports.C138_power, Reports.C138_power_refuted, Results.C52_levels, Results.C52_monotone, Results.C52_significant, Results.C52_period_level_refuted, Results.C53_default_partial, Results.C53_refuted, Results.C88_did_dict, Results.C88_multi_dict, Results.C88_collision_refuted, Results.C88_staggered_table, Results.C88_staggered_rows, Results.C89_weights, RobustVcov.C66_when_it_answers, RobustVcov.C66_same_outcome, RobustVcov.C66_message_refuted, RobustVcov.C66_saturated_refuted, RowOrder.C145_regression, RowOrder.C145_did, RowOrder.C145_did_absorb, RowOrder.C145_twfe, RowOrder.C145_sun_abraham, RowOrder.C145_solve_ols, RowOrder.C145_triple, SdidCov.C122_invariance, SdidCov.C122_bias, SdidCov.C122_null, SdidCov.C122_underdetermined, SdidCov.C122_absorbed_refuted, SdidCov.C122_irrelevant_refuted, SdidFit.C119_accepts, SdidFit.C119_sample, SdidFit.C119_row_order, SdidFit.C119_post_order, SdidFit.C119_row_order_refuted, SdidFit.C119_repeated_post_refuted, Sdid.C06_recovers_average_effect, Sdid.C06_recovers_constant_effect, Sdid.C06_fixed_effect_invariant, Sdid.C06_affine_in_treated_post, Sdid.C06_fit_recovers_effect, Sdid.C06_placebo_zero, Sdid.C63_bootstrap_pvalue_at_least_half, Sdid.C63_large_effect_significant_refuted, Sdid.C63_pvalue_range_partial, Sdid.C16_sdid_interval, SdidFit.C119_reported, SdidFit.C153_sdid, SdidFit.C153_sdid_numpy, SdidFit.C153_sdid_compiled_refuted, SdidFit.C120_effect, SdidFit.C120_period_effects, SdidFit.C120_unit_order, SdidFit.C156_sdid, SdidFit.C156_sdid_weights, SdidFit.C156_sdid_code, SdidFit.C120_unit_effects_refuted, SdidFit.C121_additive, SdidFit.C121_draw, SdidFit.C121_identity_draw, SdidFit.C121_draw_order, SdidFit.C121_bootstrap, SdidFit.C121_bootstrap_exact, SdidFit.C121_bootstrap_effect, SdidFit.C121_placebo_effect, SdidFit.C121_placebo_variance, SdidFit.C121_few_controls_refuted, SdidFit.C121_no_draws_refuted, SdidFit.C121_single_draw_refuted, SimPower.C106_defined, SimPower.C106_power, SimPower.C106_primary, SimPower.C106_range, SimPower.C106_alpha_mono, SimPower.C106_prefix, SimPower.C106_supported, SimPower.C106_callaway_refuted, SimPower.C106_failures_refuted, SimPower.C106_order_refuted, SimPower.C107_coverage, SimPower.C107_bias, SimPower.C107_missing, SimPower.C107_rmse_partial, SimPower.C107_rmse_refuted, Simplex.C01_projection_isProb, Simplex.C01_projection_isProb_rust, Simplex.C02_projection_obtuse, Simplex.C02_projection_nearest, Simplex.C02_projection_unique, Simplex.C02_projection_fixes_prob, Simplex.C02_projection_idempotent, Simplex.C02_projection_shift, Simplex.C02_projection_perm, Simplex.C02_projection_monotone, Simplex.C03_backends_agree, Simplex.C02_projection_closer, SoftSvd.C157_unique, SoftSvd.C157_backends, SoftSvd.C157_orthogonal, SoftSvd.C157_transpose, SoftSvd.C157_reorder, SoftSvd.C157_odd, SoftSvd.C157_units, SoftSvd.C157_nuclear_norm, SoftSvd.C157_proximal, SoftSvd.C157_cutoff, SoftSvd.C157_finite, SoftSvd.C157_backends_nonfinite_refuted, SoftSvd.C157_library, SoftSvd.C157_code_odd, SoftSvd.C157_code_columns, SoftSvd.C157_code_sym, SoftSvd.C157_code_units, SoftSvd.C157_code_shrink, SoftSvd.C157_code_zero, SoftSvd.C157_code_off, SoftSvd.C156_trop_code, SoftSvd.C157_unit_order, SunAb.C136_group_time, SunAb.C136_event_study, SunAb.C136_varying_pre_refuted, SunAb.C136_not_yet_refuted, SunAb.C136_anticipation_refuted, SunAb.C136_horizon_refuted, SunAb.C136_overall, SunAb.C136_cohort_effects, SunAb.C34_identification, SunAb.C34_weights, SunAb.C34_bounds, SunAb.C34_reference, SunAb.C34_overall, SunAb.C30_sunab_partial, SunAb.C30_sunab_refuted, SunAb.C73_failed_replicates_refuted, SunAb.C140_sunab, SunAb.C140_sunab_effects, SunAb.C140_sunab_effects_refuted, SunAb.C139_sunab, SunAb.C139_sunab_refuted, Svd.C143_same_solution, Svd.C143_least_squares_iff, Svd.C143_normal_equations_bound, Svd.C143_loss_of_fit, Svd.C143_minimum_norm, Svd.C143_backend_independent, Svd.C143_skip_coefficients, Svd.C143_least_squares_partial, Svd.C143_kept_independent, Svd.C143_collinear_detected, Svd.C143_dropped_near_span, Svd.C143_not_least_squares_refuted, Svd.C143_skip_refuted, Svd.C143_units_refuted, SynthWeights.C160_accuracy, SynthWeights.C160_weights, SynthWeights.C160_settles, SynthWeights.C04_unit_weights_isProb, SynthWeights.C04_single_control, SynthWeights.C04_min_weight_respected, SynthWeights.C61_numpy_not_worse_than_uniform, SynthWeights.C61_numpy_iterates_monotone, SynthWeights.C61_fixed_point_optimal, SynthWeights.C62_backends_same_step_partial, SynthWeights.C62_rust_worse_than_uniform_refuted, SynthWeights.C62_rust_worse_every_budget, SynthWeights.C62_backends_differ_refuted, SynthWeights.C05_time_weights_isProb, SynthWeights.C05_time_weights_order, SynthWeights.C05_time_weights_more_uniform, SynthWeights.C05_negative_zeta_refuted, Trends.C110_unit_levels, Trends.C110_group_levels, Trends.C110_scale, Trends.C110_swap, Trends.C110_endpoints, Trends.C110_which_changes, Trends.C110_defined, Trends.C110_df, Trends.C110_margin, Trends.C110_nonpos, Trends.C110_interval, Trends.C110_mono, Trends.C110_default, Trends.C109_slope, Trends.C109_empty, Trends.C109_default, Trends.C109_shift, Trends.C109_verdict, Trends.C109_swap, Trends.C109_time, Trends.C109_parallel_partial, Trends.C109_parallel_refuted, Trends.C109_exact_refuted, Trends.C111_verdict, Trends.C111_range, Trends.C111_mean, Trends.C111_same, Trends.C111_seen, Trends.C111_ratio, Trends.C111_scale, Trends.C110_parallel_refuted, Trends.C110_gap_refuted, Trends.C110_bump_refuted, Trends.C111_zero_refuted, Trends.C111_noperm_refuted, TripleDiff.C36_reg, TripleDiff.C36_reg_exists, TripleDiff.C36_ipw, TripleDiff.C36_reg_shift, TripleDiff.C36_ipw_shift, TripleDiff.C36_dr_formula, TripleDiff.C36_dr_partial, TripleDiff.C36_dr_refuted, TripleDiff.C37_outcome_model_ignored, TripleDiff.C37_cell_probabilities, TripleDiff.C37_refuted, TripleDiff.C37_dr_strata_partial, TripleDiff.C37_ipw_strata, TripleDiff.C38_validation_exact, TripleDiff.C75_dr_se_shift, TripleDiff.C75_dr_se_nonneg, TripleDiff.C75_ipw_refuted, TripleFit.C128_point, TripleFit.C128_point_dr_partial, TripleFit.C128_counts, TripleFit.C128_se_robust, TripleFit.C128_se_classical, TripleFit.C128_se_dr, TripleFit.C128_se_balanced, TripleFit.C128_inference, TripleFit.C128_degenerate, TripleFit.C128_fails, TripleFit.C128_weighting_total, TripleFit.C128_cluster_inert, TripleFit.C128_robust_inert, TripleFit.C128_cluster_refuted, TripleFit.C128_copies_dr, TripleFit.C128_single_rows_refuted, TripleFit.C128_reg_covariates, TripleFit.C128_cell_columns, TripleFit.C128_strict_r2, TripleFit.C128_ipw_covariates, TripleFit.C128_dr_covariates, TripleFit.C128_scores, TripleFit.C128_r2, TripleFit.C153_triple, MultiFit.C153_multi, TripleFit.C155_triple_reg_covariates, TwfeFit.C155_twfe_refuted, TripleFit.C155_triple_reg, TripleFit.C155_triple_dr_periods, TripleFit.C155_triple_dr, TripleFit.C155_triple_ipw_partial, TripleFit.C155_triple_dr_refuted, TripleFit.C155_triple_ipw_refuted, TropBoot.C142_aborts, TropBoot.C142_positions, TropBoot.C142_blocks_partial, TropBoot.C142_standard_error, TropBoot.C57_bootstrap_panel, TropBoot.C142_names_refuted, TropBoot.C142_aborts_refuted, TropBoot.C142_periods_refuted, TropBoot.C134_unit_order, TropBoot.C134_ids, TropBoot.C134_no_duplicates, TropBoot.C134_periods, TropBoot.C134_replicate, TropBoot.C134_all_periods, TropBoot.C134_strata, TropBoot.C134_standard_error, TropBoot.C134_same_panel, TropBoot.C134_balanced, TropBoot.C134_window_refuted, TropBoot.C134_undrawn_refuted, TropCv.C147_python_cells, TropCv.C147_rust_cells, TropCv.C147_no_sampling, TropCv.C147_seeded, TropCv.C147_few_cells, TropCv.C147_joint, TropCv.C147_unseeded_refuted, TropCv.C147_evaluations, TropCv.C147_no_controls, TropDescent.C158_sweep, TropDescent.C158_loop, TropDescent.C158_rust_sweep, TropDescent.C158_fixed_point, TropDescent.C158_rust_fixed_point, TropDescent.C158_estimate, TropDescent.C158_documented_objective_refuted, TropDescent.C158_backends_refuted, TropFit.C90_att_shift, TropFit.C93_time, TropFit.C93_unit, TropJoint.C103_joint_partial, TropJoint.C99_score, TropJoint.C102_variance, TropJoint.C103_joint_refuted, TropJoint.C98_unit_levels_refuted, TropJoint.C100_missing_adoption_refuted, TropJointDescent.C158_joint_step, TropJointDescent.C158_joint, TropJointDescent.C158_joint_settles, TropJointDescent.C158_joint_fixed_point, TropJoint.C96_treated_periods, TropJointRust.C127_factor_loop, TropJoint.C101_shape, TropJoint.C101_center_refuted, TropJoint.C102_left_out, TropJoint.C102_one_treated, TropJoint.C100_accepts_iff, TropJoint.C96_least_squares, TropJoint.C97_fixed_tuning, TropJoint.C97_recovery, TropJoint.C96_fails_iff, TropJointRust.C127_same_failure, TropJointRust.C127_low_step, TropJointRust.C127_low_step_refuted, TropJointRust.C127_bootstrap_strata, TropJointRust.C127_bootstrap_value, TropJointRust.C127_stopped, TropJointRust.C127_bootstrap_se, TropJointRust.C127_passes_refuted, TropJointRust.C127_zero_unit_refuted, TropJointRust.C127_weights, TropJointRust.C127_zero_unit_rejected, TropJointRust.C127_descent, TropJointRust.C127_fixed_point, TropJoint.C153_trop_joint, TropJoint.C153_trop_joint_jackknife, TropJoint.C98_fixed_tuning, TropJoint.C98_fit, TropPerm.C108_cell, TropPerm.C108_att, TropPerm.C108_score, TropPerm.C108_fit, TropPerm.C108_boot_order, TropPerm.C108_boot_identity, TropPerm.C108_rust_score, TropPerm.C104_score_partial, TropPerm.C108_subsample_refuted, Trop.C54_rejects_iff, Trop.C54_accepts_iff, Trop.C54_zero_then_one, Trop.C54_counts, Trop.C54_nonbinary_refuted, Trop.C55_global_refuted, TropBoot.C145_trop, TropBoot.C145_trop_bootstrap, TropRust.C104_fit_partial, TropRust.C104_treated_units_refuted, TropRust.C104_stored_score_refuted, TropFit.C153_trop_cell, TropFit.C153_trop, TropFit.C153_trop_score, TropFit.C153_trop_jackknife, TropFit.C153_trop_bootstrap, TropFit.C153_trop_refuted, TropFit.C94_alpha_step, TropFit.C94_beta_step, TropFit.C94_descent, TropFit.C94_fixed_point, TropFit.C91_effect_partial, TropFit.C91_att_partial, TropFit.C95_unit_levels, TropFit.C57_jackknife, TropFit.C56_stored_score, TropFit.C91_level_shift_refuted, TropFit.C92_missing_treatment_refuted, TropFit.C57_bootstrap_refuted, TropFit.C56_final_score_refuted, TropFit.C156_trop, TropFit.C156_trop_tune, Trop.C54_cell_values, TropFit.C105_interpolates, TropFit.C105_parallel_refuted, TwfeFit.C146_counts, TwfeFit.C146_fixed_effects, TwfeFit.C146_errors, TwfeFit.C146_inference, TwfeFit.C146_absorbed_treatment, TwfeFit.C146_units, TwfeFit.C146_names, TwfeFit.C146_unidentified, TwfeFit.C146_panel_partial, TwfeFit.C146_did_refuted, TwfeFit.C146_control_noise_refuted, TwfeFit.C146_zero_se_refuted, TwfeFit.C146_no_controls_refuted, TwfeFit.C146_covariates, TwfeFit.C146_constant_covariate, TwfeFit.C146_row_order, TwfeFit.C146_controls, TwfeWarn.C135_warns_iff, TwfeWarn.C135_count, TwfeWarn.C135_adoption, TwfeWarn.C135_row_order, TwfeWarn.C135_group_silent, TwfeWarn.C135_late_entry_refuted, Vcov.C14_symmetric_psd, Vcov.C14_variances_nonneg, Vcov.C14_label_invariant, Vcov.C14_row_order, Vcov.C14_singleton_clusters, Vcov.C14_one_cluster_error, Vcov.C14_scale, Vcov.C14_hash_order_irrelevant, Vcov.C65_full_rank_ok_partial, Vcov.C65_saturated_refuted, Vcov.C66_backends_agree_partial, Vcov.C66_missing_cluster_refuted, Vcov.C15_at_most_one, Vcov.C15_constant_outcome, Vcov.C15_in_unit_interval, Vcov.C15_monotone, Vcov.C15_adjusted_le, WildBoot.C60_validates, WildBoot.C60_range, WildBoot.C60_share, WildBoot.C60_refuted, WildBoot.C60_textbook, WildBoot.C60_partial, WildBoot.C60_no_power_refuted, WildBoot.C60_perfect_fit_refuted, WildBoot.C60_defined, WildBoot.C60_did_saturated, WildLin.C151_controls, WildLin.C151_units, WildLin.C151_row_order, WildLin.C151_names, WildLin.C151_estimate, WildLin.C151_no_cluster, WildLin.C151_range, WildLin.C151_no_effect_refuted, WildLin.C151_no_power_refuted, WildLin.C151_redundant_refuted, WildLin.C151_runs, WildLin.C151_report, WildLin.C155_wild_groups, WildLin.C155_wild_periods, WildLin.C155_wild_roles, WildLin.C155_wild_sign, WildTwfe.C152_runs, WildTwfe.C152_report, WildTwfe.C152_report_unique, WildTwfe.C152_estimate, WildTwfe.C152_range, WildTwfe.C152_fixed_effects, WildTwfe.C152_controls, WildTwfe.C152_units, WildTwfe.C152_row_order, WildTwfe.C152_names, WildTwfe.C152_default_clusters, WildTwfe.C152_no_effect_refuted, WildTwfe.C152_redundant_refuted, Within.C07_group_sums_zero, Within.C07_absorbs_group_effects, Within.C07_constant_within_group, Within.C07_idempotent, Within.C07_orthogonal_to_group_vars, Within.C07_n_effects, Within.C08_absorbs_effects_partial, Within.C08_unit_sums_zero_partial, Within.C08_time_sums_zero_partial, Within.C08_idempotent_partial, Within.C08_unbalanced_refuted, Within.C08_unbalanced_sums_refuted, Within.C08_unbalanced_idempotent_refuted, Within.C09_att_vs_coefficient_partial, Within.C09_att_attenuated_partial, Within.C09_twfe_att_refuted, Within.C09_period_labels_refuted

**Quot.sound, propext** (108): BootStats.C27_pvalue_perm, CSBoot.C118_update, CSBoot.C118_t, CS.C22_before_treatment, CS.C22_post_base, DatasetCache.C129_history, DatasetCache.C129_refines, DatasetCache.C129_repairs, Datasets.C130_castle_years, Datasets.C130_divorce_years, Datasets.C130_card_krueger_fails, Datasets.C130_reproducible, Datasets.C130_global_generator_refuted, Diagnostics.C46_rejects_post, Diagnostics.C45_draws_are_refits, Diagnostics.C45_runs_iff, Diagnostics.C45_fields, Diagnostics.C45_share, Diagnostics.C80_partial, Diagnostics.C82_fields, Formula.C21_accepted_shape, HonestDid.C39_zero, HonestDid.C41_zero, HonestDid.C42_pre_magnitude_refuted, HonestDid.C42_cs_magnitude, HonestDid.C39_weights_length, HonestDid.C77_significant_iff, HonestDid.C77_nan_refuted, HonestDid.C77_repr_refuted, HonestDid.C77_validate, HonestDid.C40_zero_se, HonestDid.C159_table, HonestDid.C159_uniform, HonestDid.C159_estimate, Inference.C17_dropped_coefficient, Inference.C17_cs_interval_refuted, Inference.C67_df_argument_partial, Inference.C67_nonpositive_df_normal, Inference.C67_df_none_refuted, MultiPeriod.C59_nan, Ols.C13_invalid_rejected, Ols.C13_valid_accepted, Ols.C13_error_action, Ols.C13_drop_action, Ols.C13_fallback, Ols.C13_compiled_used, Params.C18_bacon, PlotMore.C133_sensitivity_rows, PlotMore.C133_sensitivity_plot, PlotMore.C133_groups_colours, PlotMore.C133_groups_colours_refuted, PlotMore.C133_bacon_points, PlotMore.C133_bacon_colours, Plot.C123_interval, Plot.C123_inferred, Plot.C123_unknown_reference_refuted, PowerCurve.C131_required_missing_refuted, PowerCurve.C131_empty_plot_refuted, Prep.C83_missing_is_control_refuted, Prep.C84_zero_refuted, PrepRank.C50_scores_refuted, PretrendsReport.C132_single_refuted, Reports.C138_nan_refuted, Reports.C138_restriction, Reports.C138_sensitivity_table, Results.C52_nan, Results.C88_multi_table, Results.C88_multi_summary, RowOrder.C145_mixed_cohort_refuted, SdidFit.C119_pre_before_post_refuted, Sdid.C63_zero_se_contradiction, SimPower.C106_kinds, Simplex.C01_projection_empty, SunAb.C34_missing_propagates, SunAb.C74_control_option_inert, SunAb.C35_default_index_partial, SunAb.C35_refuted, SunAb.C35_filtered_refuted, TropFit.C90_counterfactual, TropFit.C90_selection, TropJoint.C103_two_step, TropJoint.C102_few, TropJoint.C99_minimiser, TropJoint.C99_defaults, TropJoint.C99_infinity, TropJoint.C101_pre_only, TropJoint.C100_same_panel, TropJointRust.C127_same_search, TropJointRust.C127_no_replicate_refuted, TropJointRust.C127_selected, Trop.C55_univariate, Trop.C55_in_grid, Trop.C55_cycle, Trop.C55_selected_in_grids, Trop.C55_never_worse, Trop.C55_fixed_point, Trop.C56_search, Trop.C56_effective_partial, TropRust.C104_search, TropRust.C104_select_partial, TropFit.C92_missing_iff, TropFit.C57_bootstrap_partial, TropFit.C156_trop_cell, TropFit.C156_trop_att, TropFit.C156_trop_score, TropFit.C156_trop_jackknife, TropFit.C156_trop_bootstrap, Trop.C56_nn_infinite

**propext** (16): CS.C22_varying_pre, DatasetCache.C129_stable, DatasetCache.C129_forced, DatasetCache.C129_fallback_iff, Ols.C13_rust_only_full_rank, Ols.C13_no_nan_vcov_partial, Ols.C13_backend_same_columns, Params.C19_bacon_atomic, Params.C19_bacon_always_valid, Params.C19_partial_update_refuted, Params.C69_unknown_rejected_partial, Params.C69_internal_names_refuted, Params.C70_cs_weights_refuted, Params.C20_method_used, Params.C20_inference_method_partial, Params.C20_stale_method_refuted

## 8. Seeded wrong programs

One line of `seeded/LOG.jsonl` is one edit of the model followed by a rebuild. `theorems_failed` lists declarations with an error; the build is stopped about 100 seconds after the first error, so the list need not be complete. The script first logged an edit that no theorem caught only after the theorems had been tightened and the edit rerun; 79 first runs of that kind were added to the log afterwards, from the saved run output, and say so in their note. The output of six sets of edits (m1, m2, m3, m21b, m22, m23) was not kept, so first runs that survived in those sets are missing from the log. Ten edits did not compile in the model itself; their note says so and they count as no evidence.

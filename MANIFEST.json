{
 "claims": [
  {
   "property": "C01",
   "status": "partial",
   "theorems": [
    "Effector.C01_accumulated_effect_partial",
    "Effector.C01_accumulated_effect_exact",
    "Effector.C01_false_beyond_sentinel",
    "Effector.C01_spec_zero_left",
    "Effector.C01_spec_linear_inside",
    "Effector.C01_spec_constant_right",
    "Effector.C01_spec_is_integral",
    "Effector.C01_curve_lipschitz"
   ],
   "note": "Proved for every evaluation point that is at most 1e8 or left of the last limit; the exact value everywhere is proved too, and the claim is proved false right of the last limit beyond 1e8 (code bug). C01_spec_is_integral: the specification is the Lebesgue integral of the step function of the bin effects."
  },
  {
   "property": "C02",
   "status": "proved",
   "theorems": [
    "Effector.C02_each_instance_in_exactly_one_bin",
    "Effector.C02_boundary_rules"
   ],
   "note": ""
  },
  {
   "property": "C03",
   "status": "proved",
   "theorems": [
    "Effector.C03_bin_effect_is_mean"
   ],
   "note": ""
  },
  {
   "property": "C04",
   "status": "proved",
   "theorems": [
    "Effector.C04_bin_variance_is_population_variance"
   ],
   "note": ""
  },
  {
   "property": "C05",
   "status": "proved",
   "theorems": [
    "Effector.C05_fill_nans",
    "Effector.C05_raises_iff"
   ],
   "note": ""
  },
  {
   "property": "C06",
   "status": "proved",
   "theorems": [
    "Effector.C06_ale_params"
   ],
   "note": ""
  },
  {
   "property": "C07",
   "status": "partial",
   "theorems": [
    "Effector.C07_additive_at_limits_partial",
    "Effector.C07_any_limits",
    "Effector.C07_linear_main_effect",
    "Effector.C07_false_uneven_categories"
   ],
   "note": "Proved for equal-width bins (every g and h, any number of bins) and, for any increasing limits, the exact curve in terms of g; exact for linear g. For categorical features with uneven spacing the claim is proved false of the code (a single global bin width divides all differences)."
  },
  {
   "property": "C08",
   "status": "proved",
   "theorems": [
    "Effector.C08_constant_gradient",
    "Effector.C08_eval_constant_gradient"
   ],
   "note": "Function level and, for every history of calls, at the level of eval. DP is covered where C18 holds (SafeMethod/SoundMethod)."
  },
  {
   "property": "C09",
   "status": "proved",
   "theorems": [
    "Effector.C09_ignored_feature",
    "Effector.C09_eval_ignored_feature"
   ],
   "note": "Function level and, for every history of calls and any centring, at the level of eval."
  },
  {
   "property": "C10",
   "status": "proved",
   "theorems": [
    "Effector.C10_linear",
    "Effector.C10_constant_shift",
    "Effector.C10_eval_linear"
   ],
   "note": ""
  },
  {
   "property": "C100",
   "status": "partial",
   "theorems": [
    "Effector.C100_dale",
    "Effector.C100_ale",
    "Effector.C100_again",
    "Effector.C100_false"
   ],
   "note": "Exact acceptance condition and exact resulting dictionary proved for all inputs. False part: min_points_per_bin is never checked (the assertion tests max_nof_bins again): C100_false."
  },
  {
   "property": "C101",
   "status": "partial",
   "theorems": [
    "Effector.C101_two",
    "Effector.C101_three",
    "Effector.C101_three_partial",
    "Effector.C101_false",
    "Effector.C101_integrators"
   ],
   "note": "scipy's quad/dblquad are parameters, instantiated with the exact (Lebesgue) integral over finite ranges. Two features: proved. Three features: exact description proved for every feature; it is the claim for feature 0 and false for features 1 and 2, where the range of the feature of interest is used for another one (C101_false)."
  },
  {
   "property": "C102",
   "status": "partial",
   "theorems": [
    "Effector.C102_ale",
    "Effector.C102_ale_numeric_partial",
    "Effector.C102_rhale",
    "Effector.C102_rhale_given",
    "Effector.C102_pdp",
    "Effector.C102_false",
    "Effector.C102_false_excess"
   ],
   "note": "PDP, d-PDP and RHALE with gradients as stated. ALE: refuted as stated - categorical features are moved half a gap beyond the smallest and largest category (a binary feature is evaluated at -1/2 and 3/2), and the last limit is 1e-8 too large; RHALE without gradient steps 1e-8 beyond. Proved with these margins (C102_ale: half the range; C102_ale_numeric_partial: only 1e-8 for features with many values)."
  },
  {
   "property": "C103",
   "status": "partial",
   "theorems": [
    "Effector.C103_ale",
    "Effector.C103_rhale",
    "Effector.C103_false_dp",
    "Effector.C36_affine_model"
   ],
   "note": "As stated it is false of the code for RHALE with dynamic programming: the penalty of an invalid bin is the absolute number 1e8, so in a small enough unit min_points_per_bin is ignored and the curve changes (C103_false_dp). Proved: ALE with every accepted binning; RHALE with Fixed and Greedy without restriction on the effects, and with DP as long as (spread of the effects)^2 * width stays below 1e8 in both units. PDP: C36."
  },
  {
   "property": "C104",
   "status": "partial",
   "theorems": [
    "Effector.C104_important_splits",
    "Effector.C104_pruned_tree",
    "Effector.C104_regional_trees",
    "Effector.C104_false_threshold",
    "Effector.C104_false_penalty"
   ],
   "note": "Proved for the four classes while root heterogeneity * (instances + 2^max_depth) <= 1e8 in both units (and, for dynamic programming, bin costs below 1e8), with heter_small_enough converted. Beyond that the claim is false: the penalty for small subregions is the absolute number 1e8 (C104_false_penalty); and without converting heter_small_enough (default 0.1) the unit decides whether an interaction is found (C104_false_threshold). ShapDP not covered (its heterogeneity is a spline fit of residuals, a black box)."
  },
  {
   "property": "C105",
   "status": "partial",
   "theorems": [
    "Effector.C105_rows",
    "Effector.C105_vec",
    "Effector.C105_vec_derivative",
    "Effector.C105_rows_derivative_partial",
    "Effector.C105_rows_derivative_view",
    "Effector.C105_local_effects",
    "Effector.C105_jacobian_partial",
    "Effector.C105_constructor_partial",
    "Effector.C105_constructor_frame",
    "Effector.C105_ale_fit",
    "Effector.C105_predict",
    "Effector.C105_eval",
    "Effector.C105_history",
    "Effector.C105_session",
    "Effector.C105_ale_session",
    "Effector.C105_rhale_session_partial",
    "Effector.C105_example_session",
    "Effector.C105_example_ale",
    "Effector.C105_false_rows_derivative",
    "Effector.C105_false_constructor",
    "Effector.C105_false_jacobian"
   ],
   "note": "Full statement proved for PDP and d-PDP (with model_jac, or vectorised) and ALE, with avg_output given or a model that does not write; for the d-PDP without model_jac row by row only for models that do not write and return arrays of their own, for RHALE only for callables that do not write (views allowed). The false_ theorems show that the three restrictions are needed: these are defects of the code."
  },
  {
   "property": "C106",
   "status": "partial",
   "theorems": [
    "Effector.C106_pdp",
    "Effector.C106_pdp_insulated",
    "Effector.C106_ale",
    "Effector.C106_rhale",
    "Effector.C106_example",
    "Effector.C106_false_axis_limits"
   ],
   "note": "Proved for every schedule: writes into the data, the effects and other arrays of the caller have no effect, and writes into axis_limits have exactly the effect of changing the object's limits from that moment on (callsWith). Hence false as stated for axis_limits (C106_false_axis_limits). Callables restricted as in C105."
  },
  {
   "property": "C107",
   "status": "partial",
   "theorems": [
    "Effector.C107_pdp",
    "Effector.C107_ale",
    "Effector.C107_ale_equal_bins",
    "Effector.C107_rhale",
    "Effector.C107_false_greedy"
   ],
   "note": "Proved for PDP/d-PDP (any histories), ALE (any common history; any accepted binning, and with explicit constant for equal bins) and RHALE with fixed bins (fit then eval): curves and heterogeneities. Refuted for greedy bins (C107_false_greedy), so false as stated for RHALE's default binning."
  },
  {
   "property": "C108",
   "status": "proved",
   "theorems": [
    "Effector.C108_pdp_constructor",
    "Effector.C108_ale_constructor",
    "Effector.C108_pdp_fit",
    "Effector.C108_pdp_eval",
    "Effector.C108_pdp_plot",
    "Effector.C108_ale_fit",
    "Effector.C108_ale_eval",
    "Effector.C108_ale_plot",
    "Effector.C108_rhale",
    "Effector.C108_rhale_jac",
    "Effector.C108_shap_fit",
    "Effector.C108_shap_eval"
   ],
   "note": "At most n calls, exactly n if the operation returns; C108_ale_plot bounds the calls (0 if fitted, at most 2)."
  },
  {
   "property": "C109",
   "status": "partial",
   "theorems": [
    "Effector.C109_ale",
    "Effector.C109_rhale",
    "Effector.C109_pdp",
    "Effector.C109_pdp_within",
    "Effector.C109_shap",
    "Effector.C109_shap_within",
    "Effector.C109_retry_ale",
    "Effector.C109_retry_pdp",
    "Effector.C109_retry_shap",
    "Effector.C109_false_pdp",
    "Effector.C109_false_pdp_fit",
    "Effector.C109_false_shap"
   ],
   "note": "Full for ALE/RHALE; for PDP/DerPDP/ShapDP full when the axis limits include the data (_within) and exact account otherwise; false then (C109_false_*)."
  },
  {
   "property": "C11",
   "status": "proved",
   "theorems": [
    "Effector.C11_ale_row_order",
    "Effector.C11_rhale_row_order",
    "Effector.C11_limits_row_order"
   ],
   "note": "Whole sessions: constructor without sub-sampling, any history of calls, eval; errors included. The model is a row-wise function."
  },
  {
   "property": "C110",
   "status": "partial",
   "theorems": [
    "Effector.C110_answered_fit",
    "Effector.C110_answered_eval",
    "Effector.C110_shap",
    "Effector.C110_eval_raises",
    "Effector.C110_swallowed_ale",
    "Effector.C110_swallowed_rhale",
    "Effector.C110_swallowed_pdp",
    "Effector.C110_false_ale",
    "Effector.C110_false_pdp",
    "Effector.C110_false_derpdp"
   ],
   "note": "Partial because the property is false of the code for four classes: C110_swallowed_* prove, for every region, exactly which exceptions are lost and what the region is given instead, C110_false_* are concrete fits that return normally with wrong regions after one transient exception. Proved as expected: without exceptions (answered_fit, answered_eval), RegionalShapDP, eval of a fitted feature."
  },
  {
   "property": "C111",
   "status": "proved",
   "theorems": [
    "Effector.C111_fit",
    "Effector.C111_stored_fit",
    "Effector.C111_eval_fitted",
    "Effector.C111_eval",
    "Effector.C111_constructor"
   ],
   "note": "For any World (user code with state and exceptions). The bound is attained in the examples (21 calls for ALE, 14 for PDP). The calls the shap library makes inside one explanation are one call; the calls of the RegionalRHALE constructor itself are not counted here."
  },
  {
   "property": "C112",
   "status": "partial",
   "theorems": [
    "Effector.C112_ale_filled",
    "Effector.C112_rhale_filled",
    "Effector.C112_pdp_filled",
    "Effector.C112_ale_raises",
    "Effector.C112_rhale_raises",
    "Effector.C112_split_cat",
    "Effector.C112_split_nan",
    "Effector.C112_pdp_poisoned",
    "Effector.C112_false_pdp"
   ],
   "note": "(i) is proved for all classes except ShapDP; of (ii) the refusal is proved for ALE/RHALE; for PDP/DerPDP the ideal is false and the exact defect is a theorem: fit('all') ends normally, empties self.data, and every later eval of every feature is NaN or an exception. (iii): proved for categorical features; for continuous ones every candidate position is NaN and both subregions are empty (C112_split_nan), so the ideal is false."
  },
  {
   "property": "C113",
   "status": "partial",
   "theorems": [
    "Effector.C113_pdp_nan_or_right",
    "Effector.C113_ice",
    "Effector.C113_pdp",
    "Effector.C113_ale_clean",
    "Effector.C113_nan_bin",
    "Effector.C113_ale_fit",
    "Effector.C113_ale_raises",
    "Effector.C113_false_ale"
   ],
   "note": "PDP and d-PDP: after any history every entry is NaN or right (C113_pdp_nan_or_right); on a fresh object exactly the entries that need a NaN prediction are NaN (C113_ice, C113_pdp). False of ALE (C113_false_ale): fill_nans cannot tell the NaN of an empty bin from that of a prediction, so one NaN drops all instances of its bin and the effect there is interpolated from the neighbours (C113_nan_bin, C113_ale_fit describe it exactly); it raises only when every non-empty bin is spoilt (C113_ale_raises). RHALE with NaN gradients under greedy/dp binning is not modelled."
  },
  {
   "property": "C114",
   "status": "partial",
   "theorems": [
    "Effector.C114_rhale_fit",
    "Effector.C114_greedy",
    "Effector.C114_dp",
    "Effector.C114_dp_fit",
    "Effector.C114_clean",
    "Effector.C114_false_rhale",
    "Effector.C114_numerical"
   ],
   "note": "The ideal is false of the code (C114_false_rhale: bins with a NaN gradient are filled in from their neighbours). Proved, for every pattern of NaN gradients: with fixed and greedy bins the stored parameters are exactly those of the instances whose bin has no NaN (C114_rhale_fit); with greedy bins every bin containing a NaN is a single step of the initial grid, or could not have been closed a step earlier with min_points instances (C114_greedy); DynamicProgramming always raises for a non-categorical feature and leaves the object unchanged (C114_dp, C114_dp_fit); without NaN nothing changes, for every session (C114_clean)."
  },
  {
   "property": "C115",
   "status": "proved",
   "theorems": [
    "Effector.C115_prefix",
    "Effector.C115_tree",
    "Effector.C115_hidden",
    "Effector.C115_root",
    "Effector.C115_clean",
    "Effector.C115_pdp",
    "Effector.C115_pdp_tree",
    "Effector.C115_one_instance",
    "Effector.C115_false_pdp"
   ],
   "note": "C115_prefix: important splits with NaN heterogeneities = first k of those without; C115_tree: the pruned tree = the NaN-free pruned tree cut below depth k; C115_hidden/C115_root: one NaN side of one candidate at level l hides level l and everything below; C115_clean: no NaN, same result; C115_pdp/C115_pdp_tree: RegionalPDP and RegionalDerPDP fits, any model (also not row-wise) with NaN outputs; C115_one_instance: one instance with a NaN on its ICE curve leaves the root alone; C115_false_pdp: a perfect interaction hidden by one of six instances. Both fits are assumed to return. C115_hidden: for searches without instance effects (PDP, DerPDP, ALE)."
  },
  {
   "property": "C116",
   "status": "proved",
   "theorems": [
    "Effector.C116_no_instance_lost",
    "Effector.C116_ignored",
    "Effector.C116_nothing_left",
    "Effector.C116_regional_pdp",
    "Effector.C116_finding"
   ],
   "note": "(1) C116_no_instance_lost; (2) C116_ignored (heterogeneities at most BIG_M/2), C116_nothing_left; (3) C116_regional_pdp. C116_finding: a concrete data set in which the only informative feature is silently ignored because of one missing entry."
  },
  {
   "property": "C117",
   "status": "proved",
   "theorems": [
    "Effector.C117_search",
    "Effector.C117_fit",
    "Effector.C117_search_returns",
    "Effector.C117_fit_returns",
    "Effector.C117_nothing_drawn",
    "Effector.C117_shown_is_measured_again"
   ],
   "note": "C117_fit: clause (1), for the five classes; C117_search: clauses (1) and (2) for an arbitrary stateful heterogeneity; C117_search_returns, C117_fit_returns: clause (3); C117_nothing_drawn: clause (4) (RegionalShapDP excepted); C117_shown_is_measured_again: finding, the heterogeneities shown can rise at a split that was kept for its drop"
  },
  {
   "property": "C118",
   "status": "partial",
   "theorems": [
    "Effector.C118_given_limits",
    "Effector.C118_default_limits",
    "Effector.C118_answers",
    "Effector.C118_regional",
    "Effector.C118_regional_answers",
    "Effector.C118_false_ale"
   ],
   "note": "Proved as stated for PDP, d-PDP and their regional evaluation, by the symmetry of the draw. Partial because with default axis limits (those of the drawn instances) and centring the reference point itself is random, which is excluded, and because it is false for ALE (C118_false_ale). C118_answers shows when eval answers for every outcome (no n instances share a value)."
  },
  {
   "property": "C119",
   "status": "proved",
   "theorems": [
    "Effector.C119_ale",
    "Effector.C119_rhale",
    "Effector.C119_ale_answers",
    "Effector.C119_rhale_answers"
   ],
   "note": "Same fit and eval centring; the feature has more than cat_limit distinct values in every draw (so that the bins are the equal ones). UnbiasedAleExamples shows a data set meeting the hypotheses, for which single draws differ from the full curve."
  },
  {
   "property": "C12",
   "status": "proved",
   "theorems": [
    "Effector.C12_ale_outside_ignored",
    "Effector.C12_rhale_outside_ignored",
    "Effector.C12_rhale_outside_ignored_computed",
    "Effector.C12_ale_append_outside"
   ],
   "note": "Whole sessions with user-given axis limits and any calls on the feature."
  },
  {
   "property": "C120",
   "status": "proved",
   "theorems": [
    "Effector.C120_given_limits",
    "Effector.C120_worst_case",
    "Effector.C120_default_limits",
    "Effector.C120_regional"
   ],
   "note": "mean squared error, Chebyshev bound and worst case of sub-sampling, for PDP and DerPDP with given limits (any centring) and default limits (uncentred), and for regions of more than 300 instances; the hypotheses that eval answers for every outcome are discharged by C118_answers / C118_regional_answers; attained worst case in SamplingErrorExamples"
  },
  {
   "property": "C121",
   "status": "proved",
   "theorems": [
    "Effector.C121_ale",
    "Effector.C121_rhale",
    "Effector.C121_rhale_given",
    "Effector.C121_pdp",
    "Effector.C121_pdp_default"
   ],
   "note": "from C85 (exchange of columns) and C11/C36 (order of the instances); concrete symmetric data set and model in Interchangeable.lean"
  },
  {
   "property": "C122",
   "status": "proved",
   "theorems": [
    "Effector.C122_shape",
    "Effector.C122_convex",
    "Effector.C122_equal",
    "Effector.C122_not_ale",
    "Effector.C122_rhale_convex"
   ],
   "note": "shape inequalities for PDP and DerPDP; C122_not_ale shows that ALE can be strictly concave where every ICE curve is a straight line; C122_rhale_convex (limits of the object ordered, binning methods as in C73): the means of the bins grow, filling gaps keeps their order, so the accumulated curve is convex on an interval containing all instances, up to 1e8"
  },
  {
   "property": "C123",
   "status": "proved",
   "theorems": [
    "Effector.C123_pdp",
    "Effector.C123_pdp_no_interaction",
    "Effector.C123_rhale",
    "Effector.C123_ale",
    "Effector.C123_region_pdp"
   ],
   "note": "Square root: any function with sqrt(x)>=0, sqrt(x)^2=x (the reals). ALE/RHALE bins: those the object stores for the feature after the call (feature_effect)."
  },
  {
   "property": "C124",
   "status": "proved",
   "theorems": [
    "Effector.C124_rhale",
    "Effector.C124_ale",
    "Effector.C124_not_pdp"
   ],
   "note": "Both families after any history, on their default and all (safe) binning methods; C124_not_pdp is the concrete counterexample for the PDP."
  },
  {
   "property": "C125",
   "status": "proved",
   "theorems": [
    "Effector.C125_pdp",
    "Effector.C125_pdp_centered",
    "Effector.C125_derpdp",
    "Effector.C125_default_limits",
    "Effector.C125_not_ale"
   ],
   "note": "C84 is the affine case (for all methods); here any strictly monotone scale for the PDP family; C125_not_ale: concrete counterexamples for ALE and RHALE."
  },
  {
   "property": "C126",
   "status": "proved",
   "theorems": [
    "Effector.C126_rhale",
    "Effector.C126_ale",
    "Effector.C126_example"
   ],
   "note": "C93 for the ALE family, per bin. A part with exactly one instance in a bin shows an interpolated heterogeneity there, hence the exception."
  },
  {
   "property": "C127",
   "status": "proved",
   "theorems": [
    "Effector.C127_search",
    "Effector.C127_important",
    "Effector.C127_trees",
    "Effector.C127_ale",
    "Effector.C127_rhale",
    "Effector.C127_pdp",
    "Effector.C127_regional_trees",
    "Effector.C127_example",
    "Effector.C127_false_nonlinear"
   ],
   "note": "C127_search, C127_important and C127_trees are for any heterogeneity function that does not notice the conversion (HeterConverted); C127_ale, C127_rhale, C127_pdp show that those of the four classes do not; C127_regional_trees puts them together through the public API (for RHALE with given derivatives or a Jacobian). C127_example: Celsius and Fahrenheit, all four classes. C127_false_nonlinear: the cube of a numerical feature gives other subregions."
  },
  {
   "property": "C128",
   "status": "proved",
   "theorems": [
    "Effector.C128_search",
    "Effector.C128_important",
    "Effector.C128_trees",
    "Effector.C128_ale",
    "Effector.C128_rhale",
    "Effector.C128_pdp",
    "Effector.C128_regional_trees",
    "Effector.C128_example",
    "Effector.C128_false_all",
    "Effector.C128_eval",
    "Effector.C128_example_eval",
    "Effector.C128_shap",
    "Effector.C128_example_shap",
    "Effector.C128_shapley",
    "Effector.C128_example_shapley"
   ],
   "note": "C128_search/C128_trees: any heterogeneity function that does not notice the other columns; C128_ale/C128_rhale/C128_pdp/C128_shap: the ones of the classes do not (ShapDP: under the hypothesis ShapMoved on the explainer, which is a black box; C128_shapley: exact Shapley values meet it); C128_regional_trees: constructor, fit and any history of calls, for RHALE with given derivatives or a Jacobian, ALE, ShapDP, PDP and DerPDP. C128_eval: eval at any node of the pruned tree, after histories without a scaled plot of the feature (see C50). C128_false_all: with the conditioning features left to the library the claim is false."
  },
  {
   "property": "C129",
   "status": "proved",
   "theorems": [
    "Effector.C129_session",
    "Effector.C129_value",
    "Effector.C129_additive",
    "Effector.C129_example",
    "Effector.C129_false_interaction"
   ],
   "note": "The explainer is an external library; exactShapley is the explainer that computes the defining sum exactly (a hypothesis about the library, as everywhere). The axis limits are the default ones. C129_false_interaction: without additivity the claim is false."
  },
  {
   "property": "C13",
   "status": "proved",
   "theorems": [
    "Effector.C13_rhale_heterogeneity",
    "Effector.C13_ale_heterogeneity",
    "Effector.C13_eval_heterogeneity"
   ],
   "note": "Holds for every x."
  },
  {
   "property": "C14",
   "status": "proved",
   "theorems": [
    "Effector.C14_fixed_equal_width"
   ],
   "note": "nof_bins >= 1, axis minimum < axis maximum, integer min_points (None: see C23)."
  },
  {
   "property": "C15",
   "status": "proved",
   "theorems": [
    "Effector.C15_greedy_increasing"
   ],
   "note": "For data inside the axis limits, as fit guarantees by filtering."
  },
  {
   "property": "C16",
   "status": "proved",
   "theorems": [
    "Effector.C16_greedy_min_points"
   ],
   "note": ""
  },
  {
   "property": "C17",
   "status": "partial",
   "theorems": [
    "Effector.C17_points_per_bin_partial",
    "Effector.C17_false_instance_on_limit"
   ],
   "note": "Proved when no instance lies exactly on an inner limit (DP under the conditions of C18); the unrestricted claim is proved false: closed-interval check vs half-open counting (code bug)."
  },
  {
   "property": "C18",
   "status": "partial",
   "theorems": [
    "Effector.C18_dp_increasing_partial",
    "Effector.C18_false_for_large_effects",
    "Effector.C18_dp_bounded"
   ],
   "note": "Proved when some grid binning costs less than the penalty 1e8 (and no NaN cost), in particular (C18_dp_bounded) when all effects lie in an interval of length C with C^2*width*(1-discount) < 1e8; proved false otherwise: for effects around 1e5 the limits returned are not increasing (code bug)."
  },
  {
   "property": "C19",
   "status": "partial",
   "theorems": [
    "Effector.C19_dp_min_points_partial",
    "Effector.C19_false_for_large_effects",
    "Effector.C18_dp_bounded"
   ],
   "note": "Same conditions as C18; proved false otherwise (code bug)."
  },
  {
   "property": "C20",
   "status": "partial",
   "theorems": [
    "Effector.C20_dp_optimal_partial",
    "Effector.C20_false_one_bin_shortcut",
    "Effector.C18_dp_bounded"
   ],
   "note": "Optimality over all grid binnings under the conditions of C18 and when the one-bin shortcut does not apply; proved false when it does."
  },
  {
   "property": "C21",
   "status": "proved",
   "theorems": [
    "Effector.C21_categorical_bins"
   ],
   "note": ""
  },
  {
   "property": "C22",
   "status": "partial",
   "theorems": [
    "Effector.C22_greedy_dp_impossible_partial",
    "Effector.C22_fixed_too_few_points_partial",
    "Effector.C22_rhale_fit_raises",
    "Effector.C22_false_fixed_constant_raises",
    "Effector.C22_false_fixed_constant_returns_limits"
   ],
   "note": "Proved for Greedy and DP, and for Fixed with too few points; proved false for Fixed on a constant feature (IndexError, or limits returned when cat_limit=0; code bug)."
  },
  {
   "property": "C23",
   "status": "partial",
   "theorems": [
    "Effector.C23_false_min_points_none"
   ],
   "note": "The property is false of the code: min_points=None raises TypeError for every data set and every method. The refutation is what is proved; nothing positive remains."
  },
  {
   "property": "C24",
   "status": "partial",
   "theorems": [
    "Effector.C24_names_partial",
    "Effector.C24_other_strings_rejected_partial",
    "Effector.C24_false_dp_rejected",
    "Effector.C24_dynamic_never_fits"
   ],
   "note": "Proved for 'greedy' and 'fixed' and for the rejection of every other string; the documented 'dp' is proved to be rejected always (code bug)."
  },
  {
   "property": "C25",
   "status": "proved",
   "theorems": [
    "Effector.C25_ale_zero_start",
    "Effector.C25_pdp_zero_start",
    "Effector.C25_shap_zero_start"
   ],
   "note": "ALE/RHALE for every history; PDP/d-PDP for every history of non-interfering calls (see C31); ShapDP at the smallest used feature value"
  },
  {
   "property": "C26",
   "status": "proved",
   "theorems": [
    "Effector.C26_ale_zero_integral",
    "Effector.C26_pdp_zero_integral",
    "Effector.C26_shap_zero_integral",
    "Effector.C26_true_mean_almost_zero",
    "Effector.C26_true_mean_ale"
   ],
   "note": "exact over the centring grid of each method; PDP for non-interfering histories (C31). Over the reals, the true mean (integral) of the centred ALE curve is within the explicit grid error of zero (C26_true_mean_ale)."
  },
  {
   "property": "C27",
   "status": "proved",
   "theorems": [
    "Effector.C27_eval_uses_right_constant",
    "Effector.pdp_eval_spec",
    "Effector.C27_shap_eval_uses_right_constant",
    "Effector.C27_shap_after_fit"
   ],
   "note": "every history; PDP: histories of calls whose axis limits do not remove instances of the feature (C31)"
  },
  {
   "property": "C28",
   "status": "partial",
   "theorems": [
    "Effector.C28_centring_is_a_shift_partial",
    "Effector.C28_false_custom_binning",
    "Effector.C28_pdp_centring_is_a_shift",
    "Effector.C28_shap_centring_is_a_shift"
   ],
   "note": "Proved when the fit in force used the default binning method or the requested centring, and for PDP, d-PDP and ShapDP. False for ALE and RHALE after a fit with a non-default binning method: eval with another centring silently refits with the default method (C28_false_custom_binning)."
  },
  {
   "property": "C29",
   "status": "proved",
   "theorems": [
    "Effector.C29_eval_is_function_of_last_fit",
    "Effector.C29_history_independent"
   ],
   "note": ""
  },
  {
   "property": "C30",
   "status": "proved",
   "theorems": [
    "Effector.C30_features_do_not_interfere",
    "Effector.C30_one_call"
   ],
   "note": ""
  },
  {
   "property": "C31",
   "status": "partial",
   "theorems": [
    "Effector.C31_default_limits_partial",
    "Effector.C31_constructed_partial",
    "Effector.C31_covered_limits_partial",
    "Effector.C31_false",
    "Effector.C31_false_raises"
   ],
   "note": "True without user-given axis limits (any model, any history). False with user-given limits (refuted on a concrete object): fit overwrites self.data."
  },
  {
   "property": "C32",
   "status": "proved",
   "theorems": [
    "Effector.C32_failed_fit_is_harmless"
   ],
   "note": ""
  },
  {
   "property": "C33",
   "status": "proved",
   "theorems": [
    "Effector.C33_pdp_is_mean_of_ice",
    "Effector.C33_std_nonneg"
   ],
   "note": "after every non-interfering history; at least one instance within the limits"
  },
  {
   "property": "C34",
   "status": "proved",
   "theorems": [
    "Effector.C34_functions_agree",
    "Effector.C34_objects_agree",
    "Effector.C34_false_empty_grid"
   ],
   "note": "for grids with at least one position; for the empty grid the loop raises (refuted)"
  },
  {
   "property": "C35",
   "status": "proved",
   "theorems": [
    "Effector.C35_additive",
    "Effector.C35_ignored_feature"
   ],
   "note": ""
  },
  {
   "property": "C36",
   "status": "proved",
   "theorems": [
    "Effector.C36_row_order",
    "Effector.C36_affine_model"
   ],
   "note": ""
  },
  {
   "property": "C37",
   "status": "proved",
   "theorems": [
    "Effector.C37_derpdp_exact_quadratic",
    "Effector.C37_jacobian_exact_affine"
   ],
   "note": "exact arithmetic"
  },
  {
   "property": "C38",
   "status": "partial",
   "theorems": [
    "Effector.C38_representable_partial",
    "Effector.C38_false"
   ],
   "note": "True when the dtype can hold the positions (float data); false for integer data (refuted)"
  },
  {
   "property": "C39",
   "status": "proved",
   "theorems": [
    "Effector.C39_split_partitions",
    "Effector.C39_effects_aligned"
   ],
   "note": "splitRows/splitEff are split_dataset without/with x_jac; exactly one side, permutation, order, row alignment."
  },
  {
   "property": "C40",
   "status": "proved",
   "theorems": [
    "Effector.C40_levels_partition_the_data",
    "Effector.C43_trees_exist"
   ],
   "note": "For the full and pruned tree of every successful search, every level; multiplicities via List.Perm."
  },
  {
   "property": "C41",
   "status": "proved",
   "theorems": [
    "Effector.C41_best_split_at_every_level",
    "Effector.singleLevel_best",
    "Effector.exCfg_search"
   ],
   "note": "Best and first among all candidates at every level of the search, for every heterogeneity function (NaN-free)."
  },
  {
   "property": "C42",
   "status": "proved",
   "theorems": [
    "Effector.C42_nothing",
    "Effector.C42_longest_prefix",
    "Effector.C42_hypotheses_met"
   ],
   "note": "Heterogeneities not negative (C42_hypotheses_met shows that this holds for searches with a non-negative heterogeneity function)."
  },
  {
   "property": "C43",
   "status": "proved",
   "theorems": [
    "Effector.C43_complete_binary_tree",
    "Effector.C43_trees_exist"
   ],
   "note": "Counts per level, ids, parents, two children via get_children, unique names for arbitrary feature names and position texts."
  },
  {
   "property": "C44",
   "status": "partial",
   "theorems": [
    "Effector.C44_rows_meet_strict_conditions",
    "Effector.C44_rows_meet_shown_conditions_partial",
    "Effector.C44_name_shows_the_condition",
    "Effector.C44_false_on_ties",
    "Effector.C44_shown_names_in_user_units",
    "Effector.C44_names_example"
   ],
   "note": "Proved if no instance lies on a numerical split position; exact characterisation (< and >=) without that; refuted for ties."
  },
  {
   "property": "C45",
   "status": "partial",
   "theorems": [
    "Effector.C45_effects_of_rows_partial",
    "Effector.C45_deeper_nodes_hold_rows",
    "Effector.C45_no_effects",
    "Effector.C45_false_at_level_two"
   ],
   "note": "True at levels 0 and 1; from level 2 on data_effect is the data itself (partitioning.py:437); refuted."
  },
  {
   "property": "C46",
   "status": "proved",
   "theorems": [
    "Effector.C46_pruned_is_top_of_full"
   ],
   "note": "Pruned tree = nodes of the full tree with level at most the number of important splits."
  },
  {
   "property": "C47",
   "status": "partial",
   "theorems": [
    "Effector.C47_inner_levels",
    "Effector.C47_pruned_nodes_partial",
    "Effector.exCfg_pruned",
    "Effector.C47_false_for_large_heterogeneity"
   ],
   "note": "Holds for all but the last level of the full tree, and for the whole pruned tree if heterogeneity * (N + 2^depth) <= 1e8; refuted for larger heterogeneities."
  },
  {
   "property": "C48",
   "status": "proved",
   "theorems": [
    "Effector.C48_one_active_column"
   ],
   "note": "Splits dictionary in feature order."
  },
  {
   "property": "C49",
   "status": "partial",
   "theorems": [
    "Effector.C49_active_column_is_the_leaf_partial",
    "Effector.C49_false_on_ties"
   ],
   "note": "Instances that do not lie on a split position; refuted for ties."
  },
  {
   "property": "C50",
   "status": "partial",
   "theorems": [
    "Effector.C50_eval_is_global_on_node",
    "Effector.C50_root_is_global",
    "Effector.C50_false_without_splits",
    "Effector.C50_node_equals_global_partial",
    "Effector.C50_constructor_keeps_effects_aligned",
    "Effector.C50_rhale_constructor",
    "Effector.C50_false_rhale_level_two",
    "Effector.C50_hypotheses_met"
   ],
   "note": "After any history without a scaled plot, RegionalX.eval at a node of the last fit's pruned tree is the global method on the node's rows (with the effects the node stores), and at the root on the whole data. False when no split was accepted (no tree is kept: eval raises) and for RHALE nodes at level two or deeper, whose stored effects belong to the wrong rows (the slip of C45); both proved as counterexamples."
  },
  {
   "property": "C51",
   "status": "proved",
   "theorems": [
    "Effector.C51_subsampling",
    "Effector.C51_accepts_exactly"
   ],
   "note": ""
  },
  {
   "property": "C52",
   "status": "partial",
   "theorems": [
    "Effector.C52_indices_identify_rows",
    "Effector.C52_rhale_partial",
    "Effector.C52_shap_partial",
    "Effector.C52_rhale_false",
    "Effector.C52_shap_false"
   ],
   "note": "True for ALE, PDP, d-PDP. RHALE and ShapDP overwrite indices with 0..n-1; refuted on concrete objects"
  },
  {
   "property": "C53",
   "status": "proved",
   "theorems": [
    "Effector.C53_default_limits",
    "Effector.C53_rhale_shap",
    "Effector.C53_limits_from_data"
   ],
   "note": ""
  },
  {
   "property": "C54",
   "status": "proved",
   "theorems": [
    "Effector.C54_centering",
    "Effector.C54_true_is_zero_integral",
    "Effector.C54_invalid_centering",
    "Effector.C54_features",
    "Effector.C54_all_features",
    "Effector.prepCenteringVal_eq",
    "Effector.C54_heterogeneity",
    "Effector.C54_plot_heterogeneity"
   ],
   "note": "The heterogeneity argument was added after a seeded error (True meaning std_err) survived."
  },
  {
   "property": "C55",
   "status": "partial",
   "theorems": [
    "Effector.C55_false_argument_changed",
    "Effector.C55_limits_drift",
    "Effector.C55_second_call_partial",
    "Effector.C55_ale_stores_changed_limits",
    "Effector.C55_false_second_call",
    "Effector.C63_hypotheses_met"
   ],
   "note": "False of the code: every call that returns has added 1e-8 to the last entry of the caller's limits array (proved for all inputs), n calls add n*1e-8, and the second call can give other effects. Proved: outside the last bin the second call gives the same effects."
  },
  {
   "property": "C56",
   "status": "partial",
   "theorems": [
    "Effector.C56_bindCall_spec",
    "Effector.C56_false_pairwise",
    "Effector.C56_false_one_vs_all",
    "Effector.C56_false_fit",
    "Effector.C56_false_repid",
    "Effector.C56_wrong_call"
   ],
   "note": "False of the code: HIndex and REPID call the PDP functions with a keyword they do not have, so after every history of calls every measure (with at least one feature to compute) raises TypeError; proved for all models, data sets and histories."
  },
  {
   "property": "C57",
   "status": "partial",
   "theorems": [
    "Effector.C57_both_scales_partial",
    "Effector.C57_ale_partial",
    "Effector.C57_false_scale_y_alone",
    "Effector.C57_false_scale_x_alone",
    "Effector.C57_hypotheses_met"
   ],
   "note": "Proved for both scalings together and for none. Refuted for scale_y alone (TypeError) and for scale_x alone (bars are not the slopes of the curve)."
  },
  {
   "property": "C58",
   "status": "partial",
   "theorems": [
    "Effector.C58_grid_is_cell_centres",
    "Effector.C58_mean_exact_affine",
    "Effector.C58_mean_exact_const",
    "Effector.C58_mean_within_bounds",
    "Effector.C58_integral_partial",
    "Effector.C58_false_integral",
    "Effector.C58_hypotheses_met",
    "Effector.C58_mean_error"
   ],
   "note": "mean_1d_linspace: proved exact for affine functions, within the bounds of the function, and (over the reals) within Lipschitz error of the true mean. integrate_1d_linspace is proved wrong: it returns (n-1)/n of the integral of a constant."
  },
  {
   "property": "C59",
   "status": "partial",
   "theorems": [
    "Effector.C59_trees_of_last_fit",
    "Effector.C59_never_scaled_partial",
    "Effector.C59_no_fit_after_scaled_plot_partial",
    "Effector.C59_false_stale_tree",
    "Effector.C59_false_none_tree",
    "Effector.C59_hypotheses_met",
    "Effector.regionalRun_stored"
   ],
   "note": "For every history of fit/refit/plot/eval/show calls the full and pruned trees come from the last successful fit; the scaled trees do too if no fit follows the last scaled plot. False in general: after a scaled plot a refit leaves the stale scaled tree in use (or raises AttributeError when the first fit had no tree); counterexamples proved."
  },
  {
   "property": "C60",
   "status": "partial",
   "theorems": [
    "Effector.C60_pdp_nd_vectorized",
    "Effector.C60_false_non_vectorized"
   ],
   "note": "pdp_nd_vectorized is correct; pdp_nd_non_vectorized is not (refuted)."
  },
  {
   "property": "C61",
   "status": "proved",
   "theorems": [
    "Effector.C61_search_never_raises",
    "Effector.C61_search_finds_a_split",
    "Effector.C61_too_many_categories_raises",
    "Effector.exCfg_ok"
   ],
   "note": "Also shows that the bound on the number of categories is needed."
  },
  {
   "property": "C62",
   "status": "partial",
   "theorems": [
    "Effector.C62_plot_draws_rhale_of_node",
    "Effector.C62_regional_ale_draws_rhale",
    "Effector.C62_false_regional_ale"
   ],
   "note": "For every history the drawn curve is that of RHALE on the node's stored rows and effects with the binning method of the last fit. RegionalALE.plot also constructs RHALE, so it does not draw the ALE of the node: counterexample proved."
  },
  {
   "property": "C63",
   "status": "partial",
   "theorems": [
    "Effector.C63_exact_value",
    "Effector.C63_documented_quotient_partial",
    "Effector.C63_false_last_bin",
    "Effector.C63_false_uneven_bins",
    "Effector.C63_hypotheses_met"
   ],
   "note": "Exact value proved for all inputs; equals the documented quotient outside the last bin and in bins as wide as the first; proved false in the last bin (+1e-8) and for uneven bins (the width of the first bin is used)."
  },
  {
   "property": "C64",
   "status": "partial",
   "theorems": [
    "Effector.C64_pdp_plot_partial",
    "Effector.C64_false_std_err",
    "Effector.C64_false_derivative",
    "Effector.C64_hypotheses_met"
   ],
   "note": "Proved for 'std', 'ice' and no heterogeneity. Refuted: the band of 'std_err' is the standard deviation; DerPDP.plot adds scale_y['mean'] to derivatives."
  },
  {
   "property": "C65",
   "status": "partial",
   "theorems": [
    "Effector.C65_shap_plot_partial",
    "Effector.C65_false_scaling",
    "Effector.C65_hypotheses_met"
   ],
   "note": "Proved for everything that plot draws. Refuted: with a scaling and without 'shap_values', plot raises TypeError."
  },
  {
   "property": "C66",
   "status": "proved",
   "theorems": [
    "Effector.C66_node_heterogeneity"
   ],
   "note": "Every node of the full and of the pruned tree; heterogeneity function arbitrary."
  },
  {
   "property": "C67",
   "status": "partial",
   "theorems": [
    "Effector.C67_level_stats",
    "Effector.C67_show_full_tree",
    "Effector.C67_show_level_stats",
    "Effector.C67_level_report",
    "Effector.C67_describe_subregions",
    "Effector.C67_show_partitioning_partial",
    "Effector.C67_show_partitioning_no_splits",
    "Effector.C67_false_zero_heterogeneity",
    "Effector.C67_hypotheses_met"
   ],
   "note": "All figures proved for every history. False part: for ALE/RHALE (python floats) show_partitioning raises ZeroDivisionError when a level that is not the last has mean heterogeneity 0 (exact condition proved, with a concrete object)."
  },
  {
   "property": "C68",
   "status": "partial",
   "theorems": [
    "Effector.C68_rhale_heterogeneity",
    "Effector.C68_ale_heterogeneity",
    "Effector.C68_pdp_heterogeneity",
    "Effector.C68_shap_heterogeneity_partial",
    "Effector.C68_false_shap_negative",
    "Effector.C68_false_shap_constant_feature",
    "Effector.C68_false_rhale_fixed_no_categories",
    "Effector.C68_rhale_heterogeneity_bounded",
    "Effector.C68_ale_heterogeneity_bounded",
    "Effector.C68_ale_heterogeneity_any_model",
    "Effector.C68_ale_heterogeneity_bounded_any_model",
    "Effector.C68_pdp_heterogeneity_any_model"
   ],
   "note": "Proved for RHALE (SafeMethod), for ALE with every model that gives one output per row (also batch-dependent ones) and for PDP/d-PDP with any black box; false for ShapDP (exceptions are not caught: a region with a constant feature raises; the spline of the spread may be negative) and for Fixed(cat_limit=0) on a constant feature. What holds for ShapDP is proved in the _partial theorem."
  },
  {
   "property": "C69",
   "status": "partial",
   "theorems": [
    "Effector.C69_default_limits_partial",
    "Effector.C69_constructed_partial",
    "Effector.C69_false"
   ],
   "note": "True without user-given axis limits (any explainer, any history, failing calls included). False with user-given limits (refuted on a concrete object): fit overwrites self.data."
  },
  {
   "property": "C70",
   "status": "proved",
   "theorems": [
    "Effector.C70_categorical_iff",
    "Effector.C70_values_only",
    "Effector.C70_recoding",
    "Effector.C70_constructor",
    "Effector.C70_automatic_types_never_raise"
   ],
   "note": ""
  },
  {
   "property": "C71",
   "status": "partial",
   "theorems": [
    "Effector.C71_search_never_raises",
    "Effector.C71_rhale_fit_never_raises_partial",
    "Effector.C71_ale_fit_never_raises_partial",
    "Effector.C71_pdp_fit_never_raises_partial",
    "Effector.C71_false_shap",
    "Effector.searchAllSplitsM_eq",
    "Effector.C71_pdp_bounded",
    "Effector.C71_rhale_bounded",
    "Effector.C71_ale_bounded",
    "Effector.C71_rhale_api",
    "Effector.C71_ale_api",
    "Effector.C71_pdp_api",
    "Effector.C71_derpdp_api",
    "Effector.C71_ale_any_model",
    "Effector.C71_pdp_any_model",
    "Effector.C71_ale_api_any_model",
    "Effector.C71_pdp_api_any_model",
    "Effector.C71_derpdp_api_any_model"
   ],
   "note": "Proved for RHALE, ALE, PDP and DerPDP. C71_rhale_bounded (greedy, fixed and dynamic-programming binning), C71_ale_bounded (fixed bins) and C71_pdp_bounded replace the hypothesis 'no heterogeneity exceeds 1e8' (see C47 for what happens beyond) by bounds on the effects, the model outputs or the ICE values; the _any_model theorems (Props/AnyModel.lean) lift ALE, PDP and DerPDP (with or without Jacobian) from row-wise models to every model with one output per row, and PDP/DerPDP to random samples. FALSE for RegionalShapDP: a candidate region in which the feature is constant raises AssertionError (C71_false_shap)."
  },
  {
   "property": "C72",
   "status": "proved",
   "theorems": [
    "Effector.C72_shap_order",
    "Effector.C72_shap_order_partial"
   ],
   "note": "C72_shap_order: any data; C72_shap_order_partial: any spline, but distinct feature values."
  },
  {
   "property": "C73",
   "status": "proved",
   "theorems": [
    "Effector.C73_rhale_slopes",
    "Effector.C73_rhale_monotone",
    "Effector.C73_ale_monotone",
    "Effector.C73_pdp_slopes",
    "Effector.C73_pdp_monotone"
   ],
   "note": "RHALE with the binning methods that return limits around the data (SafeMethod); slopes up to the 1e8 sentinel of C01. PDP for histories that do not interfere (C28)."
  },
  {
   "property": "C74",
   "status": "proved",
   "theorems": [
    "Effector.C74_derpdp_is_derivative",
    "Effector.C74_numeric_derpdp",
    "Effector.C74_numeric_jacobian"
   ],
   "note": "Over the real numbers, with exact arithmetic (rounding of finite differences is outside the model)."
  },
  {
   "property": "C75",
   "status": "partial",
   "theorems": [
    "Effector.C75_ale_figure",
    "Effector.C75_pdp_line_partial",
    "Effector.C75_shap_line_partial",
    "Effector.C75_false_pdp_outside",
    "Effector.C75_bars_cover_bins"
   ],
   "note": "Full for ALE and RHALE. PDP, DerPDP and ShapDP compute the average over the instances inside the axis limits only (refuted as stated when instances are outside)."
  },
  {
   "property": "C76",
   "status": "proved",
   "theorems": [
    "Effector.C76_rhale_accuracy",
    "Effector.C76_ale_accuracy"
   ],
   "note": "Over the real numbers; evaluation points up to the 1e8 sentinel of C01; centering of the eval equal to that of the fit or False (otherwise eval refits with the default bins, C28)."
  },
  {
   "property": "C77",
   "status": "proved",
   "theorems": [
    "Effector.C77_smallest_heterogeneity",
    "Effector.C77_perfect_split_found",
    "Effector.C77_perfect_split",
    "Effector.C77_rhale",
    "Effector.C77_ale",
    "Effector.C77_pdp",
    "Effector.C77_api",
    "Effector.C77_rhale_api",
    "Effector.C77_ale_api",
    "Effector.C77_pdp_api"
   ],
   "note": "Proved for the search in general and for RHALE (greedy), ALE (fixed), PDP and d-PDP; row-wise models; the heterogeneity of the whole data set must be positive, not 1e8 and at least the smallness threshold."
  },
  {
   "property": "C78",
   "status": "proved",
   "theorems": [
    "Effector.C78_rhale_greedy",
    "Effector.C78_rhale_fixed",
    "Effector.C78_ale_fixed",
    "Effector.C78_ale_default",
    "Effector.C78_rhale_default"
   ],
   "note": "Exact characterisations; row-wise model for ALE; cat_limit >= 1 for Fixed."
  },
  {
   "property": "C79",
   "status": "partial",
   "theorems": [
    "Effector.C79_zero_heterogeneity",
    "Effector.C79_rhale",
    "Effector.C79_ale",
    "Effector.C79_pdp",
    "Effector.C79_derpdp_additive",
    "Effector.C79_false_pdp",
    "Effector.ale_additive_flat",
    "Effector.C79_api",
    "Effector.C79_rhale_api",
    "Effector.C79_ale_api",
    "Effector.C79_pdp_api",
    "Effector.C79_derpdp_api"
   ],
   "note": "Proved for RegionalRHALE, RegionalALE and RegionalDerPDP. FALSE for RegionalPDP: its heterogeneity uses uncentred ICE curves, so for x_0 + 10 x_1 a split of feature 0 is kept for every valid centering (C79_false_pdp); what holds for it is C79_pdp (identical ICE curves)."
  },
  {
   "property": "C80",
   "status": "proved",
   "theorems": [
    "Effector.C80_conditions",
    "Effector.C80_example"
   ],
   "note": "Trees of any history; root has no condition, others an allowed one at a candidate position; depth bounded by max_depth."
  },
  {
   "property": "C81",
   "status": "proved",
   "theorems": [
    "Effector.C81_constructor",
    "Effector.C81_trees_of_own_search",
    "Effector.C81_fit_returns",
    "Effector.C81_eval",
    "Effector.C81_default_names"
   ],
   "note": "regRunM runs any list of public calls on an object built by regionalNew (Model/RegionalFit.lean); heterogeneity functions may raise. eval theorem: histories without a scaled plot of the feature (a scaled plot leaves a stale tree, see C59). Concrete objects in Props/RegionalApiExamples.lean."
  },
  {
   "property": "C82",
   "status": "proved",
   "theorems": [
    "Effector.C82_ale_irrelevant_features",
    "Effector.C82_rhale_irrelevant_features",
    "Effector.C82_pdp_irrelevant_features"
   ],
   "note": "Sessions of fit/eval calls on ALE and RHALE; any eval of PDP/DerPDP."
  },
  {
   "property": "C83",
   "status": "proved",
   "theorems": [
    "Effector.C83_ale_repeated",
    "Effector.C83_rhale_repeated",
    "Effector.C83_pdp_repeated",
    "Effector.C83_false_single_instance"
   ],
   "note": "C83_false_single_instance shows that the exception for single-instance bins is needed."
  },
  {
   "property": "C84",
   "status": "partial",
   "theorems": [
    "Effector.C84_rhale_units_partial",
    "Effector.C84_pdp_units",
    "Effector.C84_false_ale",
    "Effector.C84_false_close_limits",
    "Effector.C84_false_dp",
    "Effector.C84_false_numerical"
   ],
   "note": "As stated it is false of the code: absolute constants (EPS added to the last ALE bin limit, np.allclose in the greedy search, BIG_M cost in DP, absolute finite-difference steps) make results unit-dependent (C84_false_*). Proved: RHALE with given effects or a Jacobian and Fixed/Greedy binning, or DP with (spread of the effects)^2 * width below 1e8 in both units; limits not allclose and at most 10^8 in both units, for all histories; PDP and DerPDP with Jacobian without further restriction."
  },
  {
   "property": "C85",
   "status": "proved",
   "theorems": [
    "Effector.C85_ale_other_columns",
    "Effector.C85_rhale_other_columns",
    "Effector.C85_pdp_other_columns",
    "Effector.rewrites_reorder",
    "Effector.rewrites_recode"
   ],
   "note": "For the feature-index relabelling the column of the feature may move (s to s'). PDP histories are those respecting the axis limits (C31)."
  },
  {
   "property": "C86",
   "status": "partial",
   "theorems": [
    "Effector.C86_level_averages_partial",
    "Effector.C86_false_many_rows",
    "Effector.C86_false_centred",
    "Effector.C86_on_average",
    "Effector.C86_answers"
   ],
   "note": "Proved for datasets of at most 300 instances. The property is false as stated for more: each node (and the root) is re-evaluated through a fresh PDP with its default nof_instances=300, so nodes and root are sub-sampled differently (C86_false_many_rows, 302 rows); on average over the draws the effects of a level do average to the global one, for any number of instances (C86_on_average; C86_answers says when every draw gets an answer). Centred effects do not average either (C86_false_centred)."
  },
  {
   "property": "C87",
   "status": "proved",
   "theorems": [
    "Effector.C87_pdp_linear",
    "Effector.C87_rhale_linear"
   ],
   "note": "PDP/d-PDP after any calls; RHALE for construct, fit with Fixed bins, eval (uncentred or centred like the fit), effects given, from a Jacobian or from finite differences. Greedy/dynamic bins depend on the effects and are outside the property."
  },
  {
   "property": "C88",
   "status": "proved",
   "theorems": [
    "Effector.C88_greedy_rule",
    "Effector.C88_rhale"
   ],
   "note": "The rule for find_limits on any data that is not categorical and has at least 2m points, and the same for the limits of a fitted RHALE. Constant features and categorical data are C22/C24."
  },
  {
   "property": "C89",
   "status": "proved",
   "theorems": [
    "Effector.C89_eval_row_order",
    "Effector.C89_trees_row_order",
    "Effector.C89_false_with_sampling"
   ],
   "note": "Simulation between the two objects through the whole search, tree construction, and node evaluation, for all five classes. C89_false_with_sampling shows why the claim excludes sub-sampling."
  },
  {
   "property": "C90",
   "status": "partial",
   "theorems": [
    "Effector.C90_ale",
    "Effector.C90_pdp",
    "Effector.C90_shap",
    "Effector.C90_regional",
    "Effector.C90_example",
    "Effector.C96_one_by_one",
    "Effector.C96_false_large"
   ],
   "note": "PDP, d-PDP and the regional classes for models that treat their rows independently. C90_regional has one outcome of the random draws for all calls; with a new outcome for every call the regional statement holds when the region is not sub-sampled (C96_one_by_one) and is false for RegionalPDP on more than 300 instances (C96_false_large)."
  },
  {
   "property": "C91",
   "status": "partial",
   "theorems": [
    "Effector.C91_ale",
    "Effector.C91_pdp_default_limits_partial",
    "Effector.C91_pdp_one_feature_partial",
    "Effector.C91_false_pdp",
    "Effector.C91_shap_default_limits_partial",
    "Effector.C91_shap_one_feature_partial",
    "Effector.C91_false_shap",
    "Effector.C91_regional",
    "Effector.C96_refit",
    "Effector.C96_false_fit"
   ],
   "note": "proved for ALE, RHALE and the five regional classes; for PDP, d-PDP and ShapDP proved when the axis limits contain the data or one feature is fitted, and refuted otherwise: fit overwrites self.data with the rows inside the limits of the last feature fitted, so a second fit('all') works on fewer rows for the first features. C91_regional has one outcome of the random draws for both fits; with a new outcome per call see C96_refit (nothing sub-sampled) and C96_false_fit (RegionalPDP.fit(nof_instances=2))."
  },
  {
   "property": "C92",
   "status": "proved",
   "theorems": [
    "Effector.C92_range",
    "Effector.C92_influence"
   ],
   "note": "PDP and d-PDP after any history whose calls do not shrink self.data for the feature (C31)."
  },
  {
   "property": "C93",
   "status": "proved",
   "theorems": [
    "Effector.C93_pooling",
    "Effector.C93_example"
   ],
   "note": "PDP and d-PDP with given axis limits, after any history whose calls do not shrink self.data for the feature (C31)."
  },
  {
   "property": "C94",
   "status": "proved",
   "theorems": [
    "Effector.C94_ale",
    "Effector.C94_rhale",
    "Effector.C94_pdp",
    "Effector.C94_shap",
    "Effector.C94_regional",
    "Effector.C94_example"
   ],
   "note": "the defaults are literals in the statements (Spec.documentedFit for the regional classes)."
  },
  {
   "property": "C95",
   "status": "partial",
   "theorems": [
    "Effector.C95_search",
    "Effector.C95_ale_partial",
    "Effector.C95_rhale_partial",
    "Effector.C95_false_names"
   ],
   "note": "true of the search of RegionalRHALE/RegionalALE; refuted for ALE.fit and RHALE.fit, where the names stand for objects with min_points_per_bin=0 (and 20 instead of 100 fixed bins): the exact objects are proved."
  },
  {
   "property": "C96",
   "status": "proved",
   "theorems": [
    "Effector.C96_object",
    "Effector.C96_answers",
    "Effector.C96_refit",
    "Effector.C96_one_by_one",
    "Effector.C96_false_large",
    "Effector.C96_false_fit"
   ],
   "note": "every call has its own outcome of np.random.choice (freshRun, reseed); the two last theorems show that the conditions on sizes are needed. Within one call the outcome is a function of (N, n)."
  },
  {
   "property": "C97",
   "status": "partial",
   "theorems": [
    "Effector.C97_ale_partial",
    "Effector.C97_ale_fit_partial",
    "Effector.C97_pdp_partial",
    "Effector.C97_shap_partial",
    "Effector.C97_out_of_range",
    "Effector.C97_false_mixed",
    "Effector.C97_regional_partial",
    "Effector.C97_regional_names",
    "Effector.C97_false_regional"
   ],
   "note": "Proved for the global classes when each feature keeps one of its two names throughout (Naming), for every history; C97_out_of_range covers integers that name no column (ALE, RHALE). The full claim is false: C97_false_mixed (fit(-1) then eval(D-1) raises KeyError) and C97_false_regional (fit(-1) lets a feature be split on itself). C97_regional_names says exactly what a regional fit does under each name; the dictionaries of the regional objects are not modelled per name."
  },
  {
   "property": "C98",
   "status": "proved",
   "theorems": [
    "Effector.C98_ale",
    "Effector.C98_rhale",
    "Effector.C98_derpdp",
    "Effector.C98_pdp",
    "Effector.C98_regional_eval",
    "Effector.C98_regional_trees",
    "Effector.C98_regional_pdp"
   ],
   "note": "ALE, RHALE: every session about the feature; PDP and d-PDP: after histories that do not interfere (C31). Regional ALE, RHALE, d-PDP for every added term; RegionalPDP for constants only (false for others: C79_false_pdp). ShapDP's values come from the external explainer."
  },
  {
   "property": "C99",
   "status": "proved",
   "theorems": [
    "Effector.C99_interpolates",
    "Effector.C99_factorial",
    "Effector.C99_additive",
    "Effector.C99_rhale",
    "Effector.C99_linear",
    "Effector.C99_correlated_false"
   ],
   "note": "C99_interpolates has the general balance condition, C99_factorial and C99_additive the two natural sufficient conditions; C99_rhale compares RHALE with the derivative PDP, C99_linear all three for a linear feature. C99_correlated_false shows on correlated data that the balance condition cannot be dropped (ALE 0, 4 against PDP 2, 10)."
  }
 ]
}
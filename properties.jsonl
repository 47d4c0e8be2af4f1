{"id": "C01", "title": "Accumulated effect is the exact integral of the bin effects", "statement": "compute_accumulated_effect(x, limits, bin_effect, dx) returns, at every x, the integral from limits[0] to x of the step function that equals bin_effect[k] on bin k and 0 outside the bins: it is 0 at and left of limits[0], piecewise linear inside, and constant right of limits[-1].", "quantifier": "every increasing list of limits, every list of bin effects, every evaluation point x", "why_tests_cant": "a test checks a handful of grids; the formula must hold at every point of every bin layout, including points on limits and far right of the last limit (the code uses the sentinel 1e8 there)", "anchors": ["effector/utils.py:compute_accumulated_effect"]}
{"id": "C02", "title": "Every instance is counted in exactly one bin", "statement": "After fitting ALE/RHALE, points_per_bin has one entry per bin and its entries add up to the number of instances inside the binned range; an instance with limits[k] <= x < limits[k+1] is counted in bin k only, and an instance equal to the last limit is counted in the last bin.", "quantifier": "every set of instances inside the limits and every strictly increasing limits list", "why_tests_cant": "off-by-one at boundaries and at the last limit only shows on particular coincidences of data and limits", "anchors": ["effector/utils.py:compute_bin_effect", "effector/utils.py:compute_ale_params"]}
{"id": "C03", "title": "Bin effect is the mean effect of the bin's instances, NaN exactly for empty bins", "statement": "compute_bin_effect returns for bin k the arithmetic mean of the effects of exactly the instances that fall in bin k, and NaN if and only if no instance falls there.", "quantifier": "every data set, effect vector and increasing limits list", "why_tests_cant": "quantifies over all data sets and bin layouts", "anchors": ["effector/utils.py:compute_bin_effect"]}
{"id": "C04", "title": "Bin variance is the population variance, NaN exactly below two points", "statement": "compute_bin_variance (called with the means of compute_bin_effect) returns for bin k the population variance of the effects in bin k (never negative), the estimator variance is that divided by the number of points, and both are NaN if and only if the bin holds fewer than two instances.", "quantifier": "every data set, effect vector and increasing limits list", "why_tests_cant": "quantifies over all data sets and bin layouts", "anchors": ["effector/utils.py:compute_bin_variance"]}
{"id": "C05", "title": "fill_nans only fills gaps, by interpolation, and never extrapolates", "statement": "fill_nans leaves every non-NaN entry unchanged, returns no NaN, keeps the length, fills each gap by linear interpolation between the nearest known neighbours (constant beyond the ends), so that every filled value lies between the smallest and largest known value; it raises exactly when no entry is known (all NaN, or empty input).", "quantifier": "every vector with any NaN pattern", "why_tests_cant": "2^n NaN patterns for every length n", "anchors": ["effector/utils.py:fill_nans"]}
{"id": "C06", "title": "ALE parameters are complete and aligned", "statement": "for data inside the limits, compute_ale_params raises iff no bin holds two or more instances; otherwise dx, points_per_bin, bin_effect, bin_variance and bin_estimator_variance all have exactly one entry per bin, dx[k] is the width of bin k, and variances are non-negative.", "quantifier": "every data set inside the limits, every increasing limits list", "why_tests_cant": "success condition ranges over all data layouts", "anchors": ["effector/utils.py:compute_ale_params"]}
{"id": "C07", "title": "ALE recovers the main effect of an additive model at the bin limits", "statement": "If the model is f(x) = g(x_s) + h(other features), ALE with equal-width bins that are all non-empty evaluates, uncentred, to g(limits[k]) - g(limits[0]) at every inner limit, whatever g and h are; for a linear g it is exact up to the 1e-8 widening of the last bin. For categorical features with unevenly spaced values this should hold as well.", "quantifier": "every additive model, data set and number of bins", "why_tests_cant": "a test uses one or two models with a tolerance; systematic bias (one global dx for all bins) is invisible on uniform grids", "anchors": ["effector/utils.py:compute_local_effects", "effector/global_effect_ale.py:ALE._fit_feature", "effector/global_effect_ale.py:ALEBase.eval"]}
{"id": "C08", "title": "RHALE of a model with constant gradient is the exact line with zero heterogeneity", "statement": "If d f/d x_s is the constant c on every instance, RHALE's bin effects are all c, eval at x inside the limits is c*(x - limits[0]), and the reported heterogeneity is 0 everywhere, for every binning method.", "quantifier": "every data set, every limits list, every constant c, every x up to 1e8", "why_tests_cant": "tests use fixed slopes and random data with tolerances", "anchors": ["effector/global_effect_ale.py:RHALE._fit_feature", "effector/global_effect_ale.py:ALEBase._eval_unnorm", "effector/utils.py:compute_ale_params"]}
{"id": "C09", "title": "A feature the model ignores has a flat ALE", "statement": "If the model's output does not depend on feature s, the ALE of s is 0 everywhere with heterogeneity 0.", "quantifier": "every model ignoring feature s, every data set for which the fit succeeds", "why_tests_cant": "quantifies over all models", "anchors": ["effector/utils.py:compute_local_effects", "effector/global_effect_ale.py:ALE._fit_feature"]}
{"id": "C10", "title": "ALE is linear in the model", "statement": "With the same data and Fixed binning, the ALE bin effects (and the uncentred curve) of a*f + b*g equal a times those of f plus b times those of g; adding a constant to the model changes nothing.", "quantifier": "every pair of models, scalars, data set", "why_tests_cant": "a property over pairs of arbitrary functions", "anchors": ["effector/utils.py:compute_local_effects", "effector/utils.py:compute_bin_effect", "effector/utils.py:compute_accumulated_effect"]}
{"id": "C11", "title": "The order of the instances does not matter (ALE and RHALE)", "statement": "Permuting the rows of the data (together with the rows of data_effect) changes neither the bins found by any binning method nor the fitted parameters nor eval, or the error raised.", "quantifier": "every data set and every permutation of its rows", "why_tests_cant": "n! permutations of every data set", "anchors": ["effector/utils.py:compute_ale_params", "effector/bin_splitting.py:Greedy.find", "effector/bin_splitting.py:DP.find", "effector/bin_splitting.py:Fixed.find"]}
{"id": "C12", "title": "Instances outside the axis limits are ignored by ALE and RHALE", "statement": "Adding or removing instances whose value of the feature lies outside axis_limits changes neither the fit nor eval of that feature.", "quantifier": "every data set, axis limits and set of outside instances", "why_tests_cant": "quantifies over all data sets", "anchors": ["effector/global_effect_ale.py:ALE._fit_feature", "effector/global_effect_ale.py:RHALE._fit_feature"]}
{"id": "C13", "title": "Heterogeneity of ALE/RHALE is non-negative, starts at 0 and never decreases", "statement": "The heterogeneity returned by eval(heterogeneity=True) is >= 0, is 0 at the first limit, and is non-decreasing in x.", "quantifier": "every fitted ALE/RHALE, every pair of evaluation points", "why_tests_cant": "pairs of reals over all fits", "anchors": ["effector/global_effect_ale.py:ALEBase._eval_unnorm", "effector/utils.py:compute_accumulated_effect"]}
{"id": "C14", "title": "Fixed binning: equal-width bins spanning the axis limits", "statement": "Fixed.find on a non-categorical feature returns either False or nof_bins+1 equally spaced increasing limits from the axis minimum to the axis maximum; it returns the limits iff every bin (closed at both ends) holds at least min_points instances.", "quantifier": "every data set, axis limits, nof_bins, min_points", "why_tests_cant": "quantifies over all parameters and data", "anchors": ["effector/bin_splitting.py:Fixed.find"]}
{"id": "C15", "title": "Greedy binning: increasing limits from axis minimum to axis maximum", "statement": "Greedy.find on a feature that is neither degenerate nor categorical returns strictly increasing limits, first = axis minimum, last = axis maximum, all taken from the init_nof_bins grid (so at most init_nof_bins bins), whatever the effects are.", "quantifier": "every data set within the limits, effects, init_nof_bins >= 1, discount, min_points", "why_tests_cant": "the merge loop's path depends on all data and effects; a corrupted list shows only on special data", "anchors": ["effector/bin_splitting.py:Greedy.find"]}
{"id": "C16", "title": "Greedy binning respects min_points in every bin", "statement": "If Greedy.find returns limits then every bin [limits[k], limits[k+1]] contains at least min_points instances.", "quantifier": "every data set within the axis limits and all parameters", "why_tests_cant": "the last bin is closed unconditionally and repaired afterwards; whether the repair always works is a for-all question", "anchors": ["effector/bin_splitting.py:Greedy.find", "effector/bin_splitting.py:BinBase._bin_valid"]}
{"id": "C17", "title": "The reported points_per_bin respects min_points_per_bin", "statement": "After RHALE.fit with min_points_per_bin = m, every entry of points_per_bin in the fitted parameters is at least m.", "quantifier": "every data set, every binning method and m", "why_tests_cant": "the binning counts a closed interval, the fit counts half-open bins; the difference needs an instance exactly on a limit", "anchors": ["effector/bin_splitting.py:BinBase._bin_valid", "effector/utils.py:filter_points_in_bin", "effector/utils.py:compute_bin_effect"]}
{"id": "C18", "title": "DP binning: increasing limits from axis minimum to axis maximum", "statement": "DP.find (max_nof_bins = K >= 2, non-degenerate, non-categorical feature) returns strictly increasing limits on the K-grid, first = axis minimum, last = axis maximum, at most K bins.", "quantifier": "every data set, effects, K, min_points, discount in [0,1]", "why_tests_cant": "argmin table and back-tracking interact over K^3 entries", "anchors": ["effector/bin_splitting.py:DP.find", "effector/bin_splitting.py:DP._argmatrix_to_limits"]}
{"id": "C19", "title": "DP binning respects min_points in every bin", "statement": "Every bin returned by DP.find contains at least min_points instances.", "quantifier": "every data set within the axis limits with at least min_points instances, all parameters", "why_tests_cant": "the constraint is enforced only by a finite penalty 1e8 competing with real costs", "anchors": ["effector/bin_splitting.py:DP.find", "effector/bin_splitting.py:BinBase._bin_cost"]}
{"id": "C20", "title": "DP binning is optimal", "statement": "The binning returned by DP.find has the smallest total cost (sum of the bin costs: variance x width x discount factor, 1e8 for a bin with too few points) among all binnings of the K-grid from the axis minimum to the axis maximum.", "quantifier": "every data set and effects, every K >= 2, and every competing binning on the grid", "why_tests_cant": "exponentially many competing binnings", "anchors": ["effector/bin_splitting.py:DP.find", "effector/bin_splitting.py:DP._cost_of_move", "effector/bin_splitting.py:DP._argmatrix_to_limits"]}
{"id": "C21", "title": "Categorical features get one bin per distinct value", "statement": "When a feature has between 2 and cat_limit distinct values and every value has enough instances, the limits found by every binning method are strictly increasing, there is exactly one bin per distinct value, and each value lies strictly inside its own bin.", "quantifier": "every data set with at least two distinct values", "why_tests_cant": "all value spacings", "anchors": ["effector/bin_splitting.py:BinBase._is_categorical"]}
{"id": "C22", "title": "Impossible binnings are reported, never silently returned", "statement": "If a feature has a single distinct value or fewer instances than min_points, no binning method returns limits: it returns False (and fit raises 'Impossible to compute bins') .", "quantifier": "every degenerate data set, binning method and parameters", "why_tests_cant": "degenerate inputs combine with all parameter settings", "anchors": ["effector/bin_splitting.py:BinBase._none_valid_binning", "effector/bin_splitting.py:Fixed.find", "effector/bin_splitting.py:Greedy.find", "effector/bin_splitting.py:DP.find"]}
{"id": "C23", "title": "min_points=None disables the minimum-points check", "statement": "The documented value min_points_per_bin=None is accepted by Fixed and Greedy and means 'no check'.", "quantifier": "every data set and the remaining parameters", "why_tests_cant": "must hold for all data", "anchors": ["effector/bin_splitting.py:BinBase._bin_valid", "effector/bin_splitting.py:BinBase._none_valid_binning", "effector/bin_splitting.py:Fixed.find"]}
{"id": "C24", "title": "Every documented binning-method name works in RHALE.fit", "statement": "RHALE.fit accepts binning_method 'greedy', 'dp' and 'fixed' and uses the corresponding algorithm with the default parameters; any other string is rejected before anything is changed.", "quantifier": "every string, data set and feature", "why_tests_cant": "all strings", "anchors": ["effector/global_effect_ale.py:RHALE.fit", "effector/binning_methods.py:find_limits"]}
{"id": "C25", "title": "zero_start centring makes the curve start at 0", "statement": "eval(..., centering='zero_start') is exactly 0 at the left axis limit of the feature, for ALE, RHALE, PDP and d-PDP (for PDP every ICE curve).", "quantifier": "every data set, model, feature, axis limits and call history", "why_tests_cant": "must hold after every history of fit/eval calls", "anchors": ["effector/global_effect_ale.py:ALEBase._compute_norm_const", "effector/global_effect_ale.py:ALEBase.eval", "effector/global_effect_pdp.py:PDPBase._fit_feature", "effector/global_effect_pdp.py:PDPBase.eval"]}
{"id": "C26", "title": "zero_integral centring makes the curve average to 0", "statement": "eval(..., centering=True or 'zero_integral') averages to exactly 0 over the centring grid of the method (99 midpoints for ALE/RHALE, 100 linspaced points for PDP, the trapezoid rule over the data range for ShapDP).", "quantifier": "every data set, model, feature, axis limits and call history", "why_tests_cant": "must hold after every history of fit/eval calls", "anchors": ["effector/global_effect_ale.py:ALEBase._compute_norm_const", "effector/utils_integrate.py:mean_1d_linspace", "effector/global_effect_pdp.py:PDPBase._fit_feature", "effector/global_effect_shap.py:ShapDP._fit_feature"]}
{"id": "C27", "title": "A centred eval never uses the 'empty' sentinel or a stale constant", "statement": "After any sequence of fit and eval calls with any centring arguments, a successful eval with centring c subtracts the normalisation constant computed for c on the currently fitted curve of that feature, never the 1e8 placeholder nor a constant of another centring mode.", "quantifier": "every sequence of fit/eval calls on any features", "why_tests_cant": "histories are unbounded", "anchors": ["effector/global_effect.py:GlobalEffectBase.refit", "effector/global_effect_ale.py:ALEBase._fit_loop", "effector/global_effect_ale.py:ALEBase.eval"]}
{"id": "C28", "title": "Centring only shifts the curve", "statement": "For a fitted feature, eval with and without centring differ by a constant that does not depend on x, and the heterogeneity is the same - also when the feature was fitted with a user-chosen binning method.", "quantifier": "every history of fit/eval calls and every x", "why_tests_cant": "the automatic refit inside eval may replace the user's fit; which histories trigger it is a for-all question", "anchors": ["effector/global_effect.py:GlobalEffectBase.refit", "effector/global_effect_ale.py:ALEBase.eval"]}
{"id": "C29", "title": "ALE/RHALE eval is a function of the last fit, not of the history", "statement": "The result of eval(feature, xs, heterogeneity, centering) depends only on the constructor arguments, the binning method used at the last (implicit or explicit) fit of that feature, and the arguments: two objects with any histories that agree on that return the same values.", "quantifier": "every pair of call histories", "why_tests_cant": "unbounded histories", "anchors": ["effector/global_effect_ale.py:ALEBase._fit_loop", "effector/global_effect_ale.py:ALEBase.eval", "effector/global_effect.py:GlobalEffectBase.refit"]}
{"id": "C30", "title": "Features do not interfere (ALE/RHALE)", "statement": "Calling fit/eval/plot on feature j, successfully or not, never changes what eval returns for feature i != j.", "quantifier": "every history and every pair of features", "why_tests_cant": "unbounded histories", "anchors": ["effector/global_effect_ale.py:ALEBase._fit_loop", "effector/global_effect_ale.py:ALE._fit_feature", "effector/global_effect_ale.py:RHALE._fit_feature"]}
{"id": "C31", "title": "Features do not interfere (PDP, d-PDP)", "statement": "Calling fit/eval on feature j never changes what PDP.eval or DerPDP.eval returns for feature i != j.", "quantifier": "every data set, axis limits, history and pair of features", "why_tests_cant": "fit mutates the shared data set when user axis limits exclude instances; only a particular order of calls shows it", "anchors": ["effector/global_effect_pdp.py:PDPBase._fit_feature", "effector/global_effect_pdp.py:PDPBase.eval"]}
{"id": "C32", "title": "A failed fit does not damage earlier fits", "statement": "If fit raises for some feature (e.g. impossible binning), every feature that was fitted before and is not in the list evaluates exactly as before, and features earlier in the list are fitted normally.", "quantifier": "every history, features list and failure position", "why_tests_cant": "every crash point of the loop", "anchors": ["effector/global_effect_ale.py:ALEBase._fit_loop"]}
{"id": "C33", "title": "PDP is the mean of the ICE curves", "statement": "PDP.eval(feature, xs) at xs[t] is the average over the instances of the model output with the feature set to xs[t] and all other features unchanged; return_all gives exactly those ICE values; heterogeneity is their population standard deviation (>= 0).", "quantifier": "every row-wise model, data set, feature and grid", "why_tests_cant": "quantifies over all models and grids", "anchors": ["effector/global_effect_pdp.py:pdp_1d_vectorized", "effector/global_effect_pdp.py:pdp_1d_non_vectorized", "effector/global_effect_pdp.py:PDPBase.eval"]}
{"id": "C34", "title": "Vectorised and non-vectorised PDP agree", "statement": "use_vectorized=True and use_vectorized=False give identical results on every grid with at least one position for PDP, d-PDP with model_jac and d-PDP with finite differences, for mean, heterogeneity, standard error and return_all.", "quantifier": "every row-wise model, data set, feature, grid and flag combination", "why_tests_cant": "reshape/repeat index arithmetic over all shapes", "anchors": ["effector/global_effect_pdp.py:pdp_1d_vectorized", "effector/global_effect_pdp.py:pdp_1d_non_vectorized"]}
{"id": "C35", "title": "PDP of an additive model is the main effect with zero heterogeneity after centring", "statement": "If f(x) = g(x_s) + h(other features), the PDP is g plus a constant; with either centring the ICE curves coincide, so heterogeneity is exactly 0 and the zero_start curve is g(x) - g(axis minimum). A feature ignored by the model has a constant PDP.", "quantifier": "every g, h, data set, axis limits, x", "why_tests_cant": "quantifies over all functions", "anchors": ["effector/global_effect_pdp.py:PDPBase.eval", "effector/global_effect_pdp.py:PDPBase._fit_feature"]}
{"id": "C36", "title": "PDP does not depend on the order of the instances and commutes with affine maps of the model", "statement": "Permuting the rows leaves the mean and heterogeneity of PDP unchanged (ICE columns are permuted alike); the PDP of a*f+b is a*PDP(f)+b and its heterogeneity is |a| times.", "quantifier": "every data set, permutation, model, a, b", "why_tests_cant": "n! permutations of all data sets", "anchors": ["effector/global_effect_pdp.py:PDPBase.eval"]}
{"id": "C37", "title": "Finite differences are exact where they must be", "statement": "d-PDP without model_jac returns the exact partial derivative for every model that is quadratic in the feature (given the others); the numerical Jacobian used by RHALE is exact for models that are affine in each feature.", "quantifier": "every such model, data set and position", "why_tests_cant": "quantifies over all models of the class", "anchors": ["effector/global_effect_pdp.py:pdp_1d_vectorized", "effector/global_effect_pdp.py:pdp_1d_non_vectorized", "effector/utils.py:compute_jacobian_numerically"]}
{"id": "C38", "title": "PDP evaluates at the requested positions, whatever the dtype of the data", "statement": "PDP.eval(feature, xs) sets the feature to exactly xs[t], also if the data array has an integer dtype.", "quantifier": "every data array (float or integer dtype), every grid", "why_tests_cant": "tests use float data; integer arrays silently truncate assignments", "anchors": ["effector/global_effect_pdp.py:pdp_1d_vectorized", "effector/global_effect_pdp.py:pdp_1d_non_vectorized"]}
{"id": "C39", "title": "A split sends every instance to exactly one side", "statement": "split_dataset partitions the rows: every row goes to exactly one of the two parts, order preserved, for categorical and numerical splits; splitting data_effect keeps it row-aligned with the data.", "quantifier": "every data set, feature, position, split type", "why_tests_cant": "quantifies over all data sets incl. ties at the position", "anchors": ["effector/partitioning.py:Regions.split_dataset"]}
{"id": "C40", "title": "At every level of the tree the subregions partition the data set", "statement": "In tree_full and tree_pruned, the data of the nodes at each level are pairwise disjoint and together contain every instance exactly once; their nof_instances sum to N and their weights sum to 1; each node's nof_instances is the size of its data.", "quantifier": "every data set, heterogeneity function, depth", "why_tests_cant": "unbounded depth, arbitrary heterogeneity function", "anchors": ["effector/partitioning.py:Regions.search_all_splits", "effector/partitioning.py:Regions.splits_to_tree"]}
{"id": "C41", "title": "The best candidate split is chosen at every level", "statement": "The split chosen at a level has the largest weighted heterogeneity drop among all candidate features and positions (first one in case of ties), whatever the heterogeneity function; the reported heterogeneities and counts are those of the chosen split.", "quantifier": "every heterogeneity function, data set and candidate set", "why_tests_cant": "arbitrary heterogeneity functions", "anchors": ["effector/partitioning.py:Regions.single_level_splits"]}
{"id": "C42", "title": "Important splits are exactly the leading splits that drop heterogeneity enough", "statement": "choose_important_splits returns nothing if there are no splits, if the initial heterogeneity is below heter_small_enough or equals 1e8; otherwise the longest prefix of the found splits in which every split reduces the weighted heterogeneity by more than the fraction heter_pcg_drop_thres of the previous level.", "quantifier": "every list of splits and thresholds", "why_tests_cant": "five branches over unbounded lists, incl. zero heterogeneity", "anchors": ["effector/partitioning.py:Regions.choose_important_splits"]}
{"id": "C43", "title": "The partition tree is a complete binary tree with unique names", "statement": "A tree built from m splits has 2^l nodes at each level l <= m, node ids 0,1,2,... in creation order with 0 the root, every node of level l+1 has its parent at level l, every inner node has exactly two children, and node names are pairwise different (so that look-up by name is unambiguous), whatever feature names and positions.", "quantifier": "every list of splits, feature names and formatted positions", "why_tests_cant": "names are built by string concatenation; collisions need particular names", "anchors": ["effector/partitioning.py:Regions.splits_to_tree", "effector/partitioning.py:Tree.add_node", "effector/partitioning.py:Tree.get_children"]}
{"id": "C44", "title": "A node's data are exactly the instances that satisfy its displayed conditions", "statement": "The data of a node are the instances that satisfy all conditions in the node's name ('<=', '>', '==', '!=').", "quantifier": "every data set, split position and depth", "why_tests_cant": "the label and the filter differ only for instances exactly on the split position", "anchors": ["effector/partitioning.py:Regions.splits_to_tree", "effector/partitioning.py:Regions.split_dataset"]}
{"id": "C45", "title": "A node's data_effect are the effects of the node's instances", "statement": "In the trees of RegionalRHALE, node.data['data_effect'] holds the rows of the given data_effect that belong to the node's instances, at every level.", "quantifier": "every data set, data_effect and depth", "why_tests_cant": "needs depth two or more and inspection of internals", "anchors": ["effector/partitioning.py:Regions.splits_to_tree", "effector/regional_effect.py:RegionalEffectBase.get_node_info"]}
{"id": "C46", "title": "The pruned tree is the top of the full tree", "statement": "tree_pruned consists exactly of the levels 0..p of tree_full (same ids, names, data), where p is the number of important splits; its depth never exceeds max_depth; with no important split it is the root alone.", "quantifier": "every heterogeneity function, data set, thresholds", "why_tests_cant": "arbitrary heterogeneity functions", "anchors": ["effector/partitioning.py:Regions.choose_important_splits", "effector/partitioning.py:Regions.splits_to_tree", "effector/regional_effect.py:RegionalEffectBase._fit_feature"]}
{"id": "C47", "title": "No accepted subregion is smaller than min_points_per_subregion", "statement": "Every node of tree_pruned has at least min_points_per_subregion instances.", "quantifier": "every data set, heterogeneity below the penalty scale, thresholds", "why_tests_cant": "the constraint is enforced only via the penalty 1e8 in a weighted average", "anchors": ["effector/partitioning.py:Regions.single_level_splits", "effector/partitioning.py:Regions.choose_important_splits", "effector/regional_effect_pdp.py:RegionalPDPBase._create_heterogeneity_function", "effector/regional_effect_ale.py:RegionalRHALE._create_heterogeneity_function"]}
{"id": "C48", "title": "DataTransformer keeps every value in exactly one column", "statement": "DataTransformer(splits).transform(X) maps feature i to 2^k columns (k its number of splits); in every row exactly one of them carries the original value and the others are 0 by mask, so the sum over them restores X[:, i]; a feature without splits is copied unchanged.", "quantifier": "every X and every split dictionary in feature order", "why_tests_cant": "2^k combinations for every k", "anchors": ["effector/partitioning.py:DataTransformer.transform"]}
{"id": "C49", "title": "DataTransformer agrees with the partition tree", "statement": "The column in which a training instance is active corresponds to the leaf of the important-splits tree that contains it.", "quantifier": "every data set and splits", "why_tests_cant": "differs only for instances exactly on a split position", "anchors": ["effector/partitioning.py:DataTransformer.transform", "effector/partitioning.py:Regions.split_dataset"]}
{"id": "C50", "title": "Regional effect at the root equals the global effect", "statement": "RegionalX.eval(feature, 0, xs, ...) equals the corresponding global method's eval on the whole (sub-sampled) data set; at any node it equals the global method on that node's data.", "quantifier": "every data set, model, node, xs, centring", "why_tests_cant": "all data sets and nodes", "anchors": ["effector/regional_effect.py:RegionalEffectBase.eval", "effector/regional_effect.py:RegionalEffectBase._create_fe_object", "effector/regional_effect.py:RegionalEffectBase.get_node_info"]}
{"id": "C51", "title": "Sub-sampling takes distinct existing rows", "statement": "prep_nof_instances returns indices that are pairwise distinct, within range, nof_instances many if nof_instances < N and all rows in order otherwise; 'all' keeps the data as is; any other string is rejected.", "quantifier": "every nof_instances, N and every outcome of the random choice", "why_tests_cant": "random outcomes cannot be enumerated", "anchors": ["effector/helpers.py:prep_nof_instances"]}
{"id": "C52", "title": "The indices attribute identifies the rows in use", "statement": "After construction, obj.data equals the passed data restricted to obj.indices, for every global method.", "quantifier": "every data set, nof_instances and random outcome", "why_tests_cant": "only visible when sub-sampling really happens", "anchors": ["effector/global_effect.py:GlobalEffectBase.__init__", "effector/global_effect_ale.py:RHALE.__init__", "effector/global_effect_shap.py:ShapDP.__init__"]}
{"id": "C53", "title": "Default axis limits never drop an instance", "statement": "Without user axis_limits, every instance lies within the axis limits of every feature, so no fit ever discards data.", "quantifier": "every non-empty data set", "why_tests_cant": "all data sets", "anchors": ["effector/helpers.py:axis_limits_from_data", "effector/global_effect_pdp.py:PDPBase._fit_feature", "effector/global_effect_ale.py:ALE._fit_feature"]}
{"id": "C54", "title": "Argument normalisation is total and idempotent", "statement": "centering=True behaves exactly as 'zero_integral'; any value other than True, False, 'zero_start', 'zero_integral' is rejected; heterogeneity=True of plot means 'std' and any value other than True, False, 'std', 'std_err', 'ice', 'shap_values' is rejected; features='all' means every feature, an int means that feature alone; normalising twice changes nothing.", "quantifier": "every argument value", "why_tests_cant": "all strings", "anchors": ["effector/helpers.py:prep_centering", "effector/helpers.py:prep_features", "effector/helpers.py:prep_confidence_interval"]}
{"id": "C55", "title": "compute_local_effects does not modify its arguments", "statement": "Calling compute_local_effects leaves data and limits unchanged, so calling it twice gives the same result.", "quantifier": "every data set, model, limits", "why_tests_cant": "aliasing is invisible to value-based tests", "anchors": ["effector/utils.py:compute_local_effects"]}
{"id": "C56", "title": "The interaction measures can be evaluated", "statement": "HIndex.eval_pairwise, HIndex.eval_one_vs_all and REPID.eval_one_vs_all return a number for every data set and row-wise model.", "quantifier": "every data set and model", "why_tests_cant": "no test imports this module", "anchors": ["effector/interaction.py:HIndex", "effector/interaction.py:REPID"]}
{"id": "C57", "title": "Plot scaling is consistent", "statement": "With scale_x and scale_y, the curve drawn by ALE/RHALE.plot is the affine image of the unscaled one and the drawn bin slopes are the slopes of the drawn curve; each of scale_x, scale_y may also be given alone.", "quantifier": "every fitted effect, scaling", "why_tests_cant": "plots are not unit-tested at all", "anchors": ["effector/visualization.py:ale_plot", "effector/visualization.py:trans_affine", "effector/visualization.py:trans_bin", "effector/visualization.py:trans_scale"]}
{"id": "C58", "title": "Numerical integrals of constants are exact", "statement": "mean_1d_linspace and integrate_1d_linspace are exact for constant functions (c, resp. c*(stop-start)); mean_1d_linspace is exact for affine functions.", "quantifier": "every c, start, stop, nof_points", "why_tests_cant": "all reals", "anchors": ["effector/utils_integrate.py:mean_1d_linspace", "effector/utils_integrate.py:integrate_1d_linspace"]}
{"id": "C59", "title": "After a refit, everything a regional effect shows comes from the last fit", "statement": "After RegionalX.fit has been called again for a feature, all trees kept for it (full, pruned, and the scaled versions used for printing) come from the splits of the last fit.", "quantifier": "every history of fit / plot / show_partitioning calls", "why_tests_cant": "needs a history fit, show, fit with other arguments, show", "anchors": ["effector/regional_effect.py:RegionalEffectBase.refit", "effector/regional_effect.py:RegionalEffectBase.get_node_info", "effector/regional_effect.py:RegionalEffectBase.show_partitioning"]}
{"id": "C60", "title": "Vectorised and row-by-row PDP agree for any number of dimensions", "statement": "pdp_nd_vectorized returns, for every position, the mean of the model over the data with the features set to the position, i.e. the same as pdp_nd_non_vectorized.", "quantifier": "every model, data set, feature list and positions", "why_tests_cant": "all inputs", "anchors": ["effector/global_effect_pdp.py:pdp_nd_vectorized", "effector/global_effect_pdp.py:pdp_nd_non_vectorized"]}
{"id": "C61", "title": "The search for subregions does not raise", "statement": "Regions.search_all_splits returns without an exception, for every depth, if the data set is not empty, max_split_levels is at most the number of conditioning features, no categorical conditioning feature has more different values than max(nof_candidate_splits_for_numerical, categorical_limit), and heterogeneities are between 0 and 1e8; and it finds at least one split if additionally max_split_levels >= 1, there are at least min_points instances and the feature may be split.", "quantifier": "every data set, heterogeneity function and depth", "why_tests_cant": "arbitrary heterogeneity functions, incl. penalties; the arg max could fall on the padding of the matrix", "anchors": ["effector/partitioning.py:Regions.search_all_splits", "effector/partitioning.py:Regions.single_level_splits"]}
{"id": "C62", "title": "A regional plot draws the effect of the node it names", "statement": "RegionalRHALE.plot(feature, node) draws the curve that RHALE, constructed on the node's rows and their gradients and fitted with the binning method of the last fit, draws; RegionalALE.plot(feature, node) draws the curve that ALE on the node's rows draws.", "quantifier": "every data set, model, history of fit/plot/eval/show calls, node, scaling, centring", "why_tests_cant": "plots are not unit-tested, and the node data depend on the history of calls", "anchors": ["effector/regional_effect_ale.py:RegionalRHALE.plot", "effector/regional_effect_ale.py:RegionalALE.plot", "effector/regional_effect.py:RegionalEffectBase.get_node_info"]}
{"id": "C63", "title": "Local effects are the documented difference quotients", "statement": "compute_local_effects gives every instance the difference of the model between the right and the left limit of the instance's bin, divided by the width of that bin.", "quantifier": "every row-wise model, data set and increasing limits that enclose the data", "why_tests_cant": "all data sets and all limits, including uneven bins and the last bin", "anchors": ["effector/utils.py:compute_local_effects"]}
{"id": "C64", "title": "PDP.plot and DerPDP.plot draw the average of the ICE curves, consistently scaled", "statement": "plot draws, at equally spaced positions between the axis limits, the mean of the centred ICE values; the band of heterogeneity 'std' ('std_err') is the curve plus and minus the standard deviation (the standard error) of the ICE values; with 'ice' the drawn curves are the ICE curves of distinct instances, all of them for nof_ice='all'; with scale_x and scale_y everything is in original units.", "quantifier": "every model, data set, axis limits, history of fit/eval calls, centring, number of points, nof_ice and scaling", "why_tests_cant": "what is drawn is not unit-tested; the claim ranges over all histories, data sets and scalings", "anchors": ["effector/visualization.py:plot_pdp_ice", "effector/global_effect_pdp.py:PDPBase.plot"]}
{"id": "C65", "title": "ShapDP.plot draws the fitted curve, spread and SHAP values, consistently scaled", "statement": "plot draws the fitted curve minus the constant of the requested centring; the band of 'std' is the fitted spread; with 'shap_values' every scattered point is the feature value and the equally shifted SHAP value of one fitted instance, no instance twice; with scale_x and scale_y everything is in original units.", "quantifier": "every explainer, spline, data set, axis limits, history of fit/eval calls, centring, nof_shap_values and scaling", "why_tests_cant": "what is drawn is not unit-tested; the claim ranges over all histories, data sets and scalings", "anchors": ["effector/visualization.py:plot_shap", "effector/global_effect_shap.py:ShapDP.plot"]}
{"id": "C66", "title": "The heterogeneity shown for a node is that of its own instances", "statement": "In the full and the pruned tree of a regional fit, every node holds the instances that take one path of branches at the splits above it, and its heterogeneity is the value of the method's heterogeneity function on exactly these instances (with their instance effects).", "quantifier": "every data set, heterogeneity function, depth, conditioning features, and every node of either tree", "why_tests_cant": "the heterogeneities are computed during the search and attached to nodes by position, later; a shift would only be visible for particular trees", "anchors": ["effector/partitioning.py:Regions.splits_to_tree", "effector/partitioning.py:Regions.single_level_splits"]}
{"id": "C67", "title": "show_partitioning and describe_subregions report the regions of the last fit", "statement": "After any history of calls, show_partitioning prints every node of the pruned (or full) tree exactly once, from the root, followed by one line per level with the population-weighted mean heterogeneity and its drop from the level above; describe_subregions reports for every level the split feature, its type and position (in original units if scales are given), the mean heterogeneity before and after, the drop, and the numbers of instances before and after. Neither raises an exception.", "quantifier": "every data set, heterogeneity function, depth, history of fit/eval/plot calls, scaling, only_important", "why_tests_cant": "printed output is not unit-tested; the claim ranges over all trees and histories, including degenerate heterogeneities", "anchors": ["effector/regional_effect.py:RegionalEffectBase.show_partitioning", "effector/regional_effect.py:RegionalEffectBase.describe_subregions", "effector/partitioning.py:Tree.show_full_tree", "effector/partitioning.py:Tree.show_level_stats", "effector/partitioning.py:Tree.get_level_stats"]}
{"id": "C68", "title": "The heterogeneity of a region is a non-negative number", "statement": "The number by which a regional effect ranks candidate regions is always available and not negative: for any region it is 1e8 if the region has fewer rows than min_points_per_subregion or the effect cannot be fitted on it, and otherwise, for RegionalRHALE/RegionalALE, the standard deviation of the local effects accumulated over the bins up to the largest value of the feature in the region, and for RegionalPDP/RegionalDerPDP (RegionalShapDP) the mean over ten evenly spread points of the standard deviation of the ICE curves (of the fitted spread). It never raises.", "quantifier": "all regions (row lists, effects), features, models, Jacobians, binning methods, centring modes, numbers of instances, thresholds", "why_tests_cant": "The search evaluates this on exponentially many candidate regions, including degenerate ones (constant feature, few rows); one exception or negative value ends or misdirects the search.", "anchors": ["effector/regional_effect_ale.py:RegionalRHALE._create_heterogeneity_function", "effector/regional_effect_ale.py:RegionalALE._create_heterogeneity_function", "effector/regional_effect_pdp.py:RegionalPDPBase._create_heterogeneity_function", "effector/regional_effect_shap.py:RegionalShapDP._create_heterogeneity_function"]}
{"id": "C69", "title": "Features do not interfere (ShapDP)", "statement": "Calling fit, eval or plot for one feature, successfully or not, never changes what ShapDP.eval returns or raises for another feature.", "quantifier": "every data set, explainer, spline and history of calls", "why_tests_cant": "every interleaving of calls on several features, including failing ones", "anchors": ["effector/global_effect_shap.py:ShapDP._fit_feature", "effector/global_effect_shap.py:ShapDP.fit", "effector/global_effect_shap.py:ShapDP.eval"]}
{"id": "C70", "title": "A feature is categorical exactly if it has fewer than cat_limit different values", "statement": "get_feature_types labels a feature 'cat' exactly if it has fewer than categorical_limit different values, independently of the order, repetition and one-to-one recoding of the values; a regional object made without feature_types uses these labels for the data it was given, and its fit can then never fail because a categorical feature has too many values.", "quantifier": "every data set, limit, feature, recoding and constructor call", "why_tests_cant": "boundary of a comparison for all data sets; interplay of the labels with the size of the candidate table", "anchors": ["effector/utils.py:get_feature_types", "effector/regional_effect.py:RegionalEffectBase.__init__"]}
{"id": "C71", "title": "Fitting a regional effect raises no exception", "statement": "For every data set, model, Jacobian, and centring argument, RegionalRHALE/RegionalALE/RegionalPDP/RegionalDerPDP/RegionalShapDP.fit with valid parameters finishes with a (possibly empty) list of splits: no candidate region, however few rows it has and whatever the values of the feature of interest in it, makes the search raise.", "quantifier": "every data set, model, feature of interest, conditioning features and search parameters; every candidate region met by the search", "why_tests_cant": "the candidate regions depend on the data: the search evaluates the heterogeneity on exponentially many different subsets of the rows, and one degenerate subset is enough to crash", "anchors": ["effector/partitioning.py:Regions.search_all_splits", "effector/partitioning.py:Regions.single_level_splits", "effector/regional_effect_ale.py", "effector/regional_effect_pdp.py", "effector/regional_effect_shap.py"]}
{"id": "C72", "title": "The order of the instances does not matter (ShapDP)", "statement": "If shap explains the instances independently of their order and the curve fit does not depend on the order of points with the same abscissa, shuffling the rows of the data changes nothing about what ShapDP.eval returns or raises after any history of calls.", "quantifier": "every data set, permutation, explainer, spline and history of calls", "why_tests_cant": "all permutations and histories", "anchors": ["effector/global_effect_shap.py:ShapDP._fit_feature", "effector/global_effect_shap.py:ShapDP.eval"]}
{"id": "C73", "title": "The effect of a monotone feature is monotone, and no steeper than the model", "statement": "If the model never decreases in a feature, the curves that PDP, ALE and RHALE return for it never decrease, whatever was fitted or evaluated before and whichever centering is asked for; if the slope of the model along the feature is always between g1 and g2, so is that of the PDP curve between any two points and of the RHALE curve between any two points of its limits.", "quantifier": "every model monotone (or with bounded slope) in the feature, every data set, history of calls, grid and centering", "why_tests_cant": "a statement about all monotone models and all pairs of points; the empty bins and the bins' rounding are where it could break", "anchors": ["effector/global_effect_ale.py:ALEBase.eval", "effector/global_effect_pdp.py:PDPBase.eval", "effector/utils.py:fill_nans", "effector/utils.py:compute_accumulated_effect"]}
{"id": "C74", "title": "DerPDP is the derivative of PDP", "statement": "With model_jac the curve DerPDP.eval returns is exactly the derivative of the curve PDP.eval returns, at every point; without it the finite differences differ from that derivative by at most L*1e-6, where L is the Lipschitz constant of the derivative; the numerical Jacobian that RHALE uses by default is off by at most L*eps.", "quantifier": "every differentiable model, data set, history of calls and grid", "why_tests_cant": "a statement about derivatives at every point for every differentiable model", "anchors": ["effector/global_effect_pdp.py:DerPDP", "effector/global_effect_pdp.py:PDP", "effector/utils.py:compute_jacobian_numerically"]}
{"id": "C75", "title": "The average-output line and the error bars of a plot", "statement": "With show_avg_output the horizontal line of every plot is at the value avg_output given to the constructor, or else at the mean of the model's outputs on the data, in the units of scale_y; without it there is none. ALE and RHALE draw error bars exactly if heterogeneity is not False, their half-height is the square root of the drawn bin variance, and the bar of each bin reaches from the bin's left to its right limit.", "quantifier": "every data set, model, history of calls, scaling and argument value", "why_tests_cant": "all histories, scalings and data sets", "anchors": ["effector/helpers.py:prep_avg_output", "effector/global_effect_ale.py:ALEBase.plot", "effector/visualization.py:ale_bins", "effector/global_effect_pdp.py:PDPBase.plot", "effector/global_effect_shap.py:ShapDP.plot"]}
{"id": "C76", "title": "ALE and RHALE follow the effect of an additive model, up to the bin width", "statement": "For a model g(x_s) + h(other features) whose g' has Lipschitz constant L, after a fit with n equal bins each holding an instance, the difference of the values RHALE.eval returns at two points a <= b of the axis is g(b) - g(a) up to L*w*(b-a), where w is the bin width; for ALE up to (L*(w+1e-8) + 1e-8*max|g'|/w)*(b-a).", "quantifier": "every differentiable effect with Lipschitz derivative, data set, number of bins, history of calls, centering and pair of points", "why_tests_cant": "a uniform error bound for all smooth effects and all bin counts", "anchors": ["effector/global_effect_ale.py:RHALE", "effector/global_effect_ale.py:ALE", "effector/utils.py:compute_accumulated_effect", "effector/utils.py:compute_bin_effect"]}
{"id": "C77", "title": "Regional fit picks the split with the smallest remaining heterogeneity and finds a perfect split", "statement": "At every level of a regional fit the split chosen leaves the smallest size-weighted heterogeneity among all candidate splits. In particular, if some candidate split of the root separates the data into two regions on each of which the feature has no heterogeneity (RHALE: equal gradients; ALE: model additive in the feature; (d-)PDP: equal ICE curves), and the method can be fitted there, then exactly one split is kept and both regions have heterogeneity 0.", "quantifier": "every data set, model, candidate split, threshold below 1, and binning parameters", "why_tests_cant": "a statement about the minimum over all candidates for all data sets", "anchors": ["effector/partitioning.py:Regions.search_all_splits", "effector/partitioning.py:Regions.choose_important_splits", "effector/regional_effect_ale.py:RegionalRHALE", "effector/regional_effect_ale.py:RegionalALE", "effector/regional_effect_pdp.py:RegionalPDPBase"]}
{"id": "C78", "title": "When ALE and RHALE can be fitted", "statement": "fit of one feature succeeds exactly when: (Greedy, min_points_per_bin>=2) the feature has at least two different values within the axis limits, at least min_points_per_bin instances lie there, and if there are at most cat_limit different values each occurs at least min_points_per_bin times; (Fixed) the same for few values, otherwise every equal-width bin has min_points_per_bin instances. With the default arguments ALE succeeds with at least 21 and RHALE with at least 101 instances whose feature is not constant.", "quantifier": "every data set, axis limits, model or gradient, and binning parameters", "why_tests_cant": "an exact characterisation over all data sets", "anchors": ["effector/global_effect_ale.py:ALE.fit", "effector/global_effect_ale.py:RHALE.fit", "effector/axis_partitioning.py:Greedy", "effector/axis_partitioning.py:Fixed", "effector/utils.py:compute_ale_params"]}
{"id": "C79", "title": "A feature without interactions is not split", "statement": "If the model is additive in the feature of interest (RegionalALE, RegionalDerPDP, RegionalPDP), or its gradient with respect to it is the same for all instances (RegionalRHALE), a regional fit keeps no split of that feature, whatever the thresholds.", "quantifier": "every additive model, data set, binning method and threshold", "why_tests_cant": "all models and data sets", "anchors": ["effector/partitioning.py:Regions.choose_important_splits", "effector/regional_effect_ale.py:RegionalRHALE", "effector/regional_effect_ale.py:RegionalALE", "effector/regional_effect_pdp.py:RegionalPDP", "effector/regional_effect_pdp.py:RegionalDerPDP"]}
{"id": "C80", "title": "What a regional effect conditions on", "statement": "After any history of calls on a RegionalALE/RHALE/PDP/ShapDP object, every node of the trees of feature f (as fitted last) other than the root conditions on a feature that the fit allowed (candidate_conditioning_features; with 'all', never f itself), at a candidate position of that feature (a midpoint of the linspace grid, or an occurring category) and with that feature's own type; no node is deeper than max_depth; a categorical f has a tree only if split_categorical_features is on.", "quantifier": "all configurations, all histories of fit/eval/plot calls, all features, all fit arguments, both trees, all nodes", "why_tests_cant": "A test fixes a dataset and a fit; the claim is about every candidate list, dataset and call history", "anchors": ["effector/regional_effect.py:RegionalEffectBase._fit_feature", "effector/partitioning.py:Regions.search_all_splits,single_level_splits,splits_to_tree"]}
{"id": "C81", "title": "A regional object stores the subregions found by its own method", "statement": "For each of the five regional classes, after any history of fit, eval and plot calls (successful or raising) on a constructed object: the subregions of a feature are those of the search that uses the class's own heterogeneity function with the arguments of the last successful fit of that feature (the default arguments if eval or plot had to fit it), on the instances the constructor sampled; fit raises nothing exactly when its arguments are accepted and that search succeeds for every named feature; eval at a subregion is the class's global method on that subregion's instances and effects.", "quantifier": "every class, model, data set, constructor argument, history of calls and fit arguments", "why_tests_cant": "Tests run one class on one data set with one fit; the claim is about every history, including histories with failing calls, and every combination of arguments.", "anchors": ["effector/regional_effect.py:RegionalEffectBase.__init__,_fit_feature,refit,eval,plot", "effector/regional_effect_ale.py:RegionalRHALE.fit,RegionalALE.fit", "effector/regional_effect_pdp.py:RegionalPDPBase.fit", "effector/regional_effect_shap.py:RegionalShapDP.fit", "effector/partitioning.py:Regions.search_all_splits"]}
{"id": "C82", "title": "What the model does not look at does not matter", "statement": "If the model's output (and, for RHALE, its Jacobian or the supplied effects of the feature) depends only on the features in a set S, and two data sets of the same length agree instance by instance on the features in S, then after the same constructor call and the same session of fit/eval calls on the two data sets, evaluating a feature of S with ALE, RHALE, PDP or DerPDP gives the same result (values, heterogeneity or exception).", "quantifier": "all models, all sets S, all pairs of data sets agreeing on S, all axis limits, binnings, centerings and sessions of calls", "why_tests_cant": "A test perturbs a few columns of one data set; the claim is about every perturbation of every irrelevant column and every history of calls.", "anchors": ["effector/global_effect_ale.py:ALE._fit_feature,RHALE._fit_feature", "effector/global_effect_pdp.py:PDPBase.eval", "effector/utils.py:compute_local_effects", "effector/global_effect.py:GlobalEffectBase.__init__"]}
{"id": "C83", "title": "Repeating every instance changes nothing", "statement": "If every instance (with its effects, if given) is repeated k times, in any order, then PDP/DerPDP averages and heterogeneities are unchanged; and for ALE/RHALE, with k times the minimal number of instances per bin, whenever constructing, fitting and evaluating works on the original data it works on the repeated data and gives the same curve - and the same heterogeneity, unless a bin holds exactly one original instance (its variance is then unknown and interpolated, but 0 after repetition).", "quantifier": "all models, data sets, k >= 1, orders, axis limits, binning methods, centerings, positions; for PDP all histories that respect the axis limits", "why_tests_cant": "A test repeats one data set; the claim is about every data set, multiplicity, order and binning method.", "anchors": ["effector/global_effect_ale.py:ALE._fit_feature,RHALE._fit_feature,ALEBase.eval", "effector/utils.py:compute_ale_params,compute_bin_variance,fill_nans", "effector/bin_splitting.py:BinBase,Greedy,DP,Fixed", "effector/global_effect_pdp.py:PDPBase.eval"]}
{"id": "C84", "title": "The unit in which a feature is measured does not matter", "statement": "Measure a feature in another unit (a*x+b instead of x, a>0; model, axis limits and positions converted alike, derivatives divided by a). Then, after the same calls, ALE, RHALE and PDP evaluate to the same values and heterogeneity at the converted positions (or raise the same exception), and DerPDP to those divided by a.", "quantifier": "all models, data sets, a > 0, b, axis limits, binnings, centerings, positions and call histories for that feature", "why_tests_cant": "A test converts one data set once; the claim is about every scale and offset, every binning and every history.", "anchors": ["effector/global_effect_ale.py:RHALE._fit_feature,ALEBase.eval", "effector/global_effect_pdp.py:PDPBase.eval", "effector/bin_splitting.py:Fixed,Greedy,DP", "effector/utils.py:compute_local_effects,compute_ale_params"]}
{"id": "C85", "title": "The other columns' codes, order and number do not matter", "statement": "Rewrite the table - recode or rescale other features, reorder the columns, add or drop columns - and the model accordingly, leaving the feature itself (wherever its column now is), its axis limits and its derivative unchanged. Then after the same calls for the feature, ALE, RHALE (derivatives given, from a Jacobian or numerical), PDP and DerPDP evaluate to the same result or raise the same exception.", "quantifier": "all models, data sets, rewritings that keep the feature, axis limits, binnings, centerings, positions and call histories for that feature", "why_tests_cant": "A test permutes or recodes one table; the claim ranges over every rewriting, of any number of columns, and every history.", "anchors": ["effector/global_effect_ale.py:ALE._fit_feature,RHALE._fit_feature,ALEBase.eval", "effector/global_effect_pdp.py:PDPBase.eval", "effector/utils.py:compute_local_effects,compute_jacobian_numerically", "effector/helpers.py:axis_limits_from_data"]}
{"id": "C86", "title": "The effects of one level of a regional tree average to the global effect", "statement": "For a regional PDP or d-PDP method and any feature, take the tree left by the last fit and any level of it at which every node was split on the way down. Evaluating the nodes of that level (not centred, on the same points) and averaging them with weights equal to the nodes' shares of the instances gives the effect evaluated at the root; and the weighted average of the nodes' heterogeneity variances plus the weighted spread of the nodes' effects gives the root's variance (law of total variance), so the weighted average of the nodes' standard deviations never exceeds the root's.", "quantifier": "every black box, dataset, feature, grid, level, fit arguments and history of calls", "why_tests_cant": "It relates the evaluations of arbitrarily many regions found by a search on arbitrary data to the evaluation of the root; a test can only try a few datasets.", "anchors": ["effector/regional_effect.py: RegionalEffectBase.eval, _create_fe_object", "effector/regional_effect_pdp.py: RegionalPDP, RegionalDerPDP", "effector/global_effect_pdp.py: PDPBase.eval"]}
{"id": "C87", "title": "Effects of a linear combination of models", "statement": "For the model a*f + b*g the ICE curves and the average of PDP and d-PDP, and the curve of RHALE with fixed bins, are a times those of f plus b times those of g (whatever the centring and earlier calls); the heterogeneity at every point is at most |a| times that of f plus |b| times that of g; if one of the three scripts raises, all do.", "quantifier": "every pair of models, every coefficients, every data, grid, centring and history", "why_tests_cant": "an identity and an inequality over all pairs of models; tests only compare single models", "anchors": ["effector/global_effect_pdp.py:PDPBase.eval", "effector/global_effect_ale.py:RHALE", "effector/utils.py:compute_ale_params", "effector/utils.py:fill_nans"]}
{"id": "C88", "title": "Greedy binning closes a bin exactly where widening would raise its cost", "statement": "Greedy(init_nof_bins=n, min_points_per_bin=m, discount=d): scanning the n equal cells from the left, the current bin is closed at the first cell boundary where the bin has at least m points and extending it by the next cell would raise its cost (variance of the effects times width, discounted by the share of points); the last bin is merged with its neighbour if it has fewer than m points. The limits of a fitted RHALE are exactly those.", "quantifier": "every data, effects, n, m, discount, axis limits with a non-degenerate width", "why_tests_cant": "the rule is a statement about every prefix of the scan; tests compare a few data sets with expected limits", "anchors": ["effector/utils_bin_splitting.py:Greedy.find_limits", "effector/global_effect_ale.py:RHALE._fit_feature"]}
{"id": "C89", "title": "The order of the instances does not matter for regional effects", "statement": "Two regional objects (RegionalRHALE, RegionalALE, RegionalPDP, RegionalDerPDP or RegionalShapDP) built with the same arguments on the same instances in another order (effects re-ordered with them) behave alike: the constructors succeed or fail alike, after any calls the partition trees agree node by node (name, condition, split, heterogeneity, weight, instances as a multiset), and eval at any node gives the same values or the same exception. This is for objects that do not draw a random sub-sample (all instances kept; at most 300 instances for PDP/d-PDP and 100 for ShapDP, whose nodes are otherwise sub-sampled), and for ShapDP with an explainer and a curve fit that treat their input as a set.", "quantifier": "every data set and permutation of it, row-wise model and gradient, given or computed effects, arguments of the constructor and of fit, history of fit/eval/plot calls, feature, node, positions", "why_tests_cant": "a statement about all permutations of all data sets and all call histories", "anchors": ["effector/partitioning.py:Regions.search_all_splits", "effector/partitioning.py:Regions.splits_to_tree", "effector/regional_effect.py:RegionalEffectBase.eval", "effector/regional_effect_ale.py", "effector/regional_effect_pdp.py", "effector/regional_effect_shap.py"]}
{"id": "C90", "title": "Evaluating at several positions is evaluating at each of them", "statement": "For every class, after any history of calls, eval at a list of positions returns the effects (and heterogeneities) that a loop with one eval call per position returns, in the order of the positions; if it raises, one of the single calls raises the same exception.", "quantifier": "every global and regional class, history of calls, list of positions (unsorted, repeated, outside the limits), centring, heterogeneity flag", "why_tests_cant": "the list of positions, its order and the state that the calls of the loop leave behind are unbounded", "anchors": ["effector/global_effect_ale.py:ALEBase.eval", "effector/global_effect_pdp.py:PDPBase.eval", "effector/global_effect_shap.py:ShapDP.eval", "effector/regional_effect.py:RegionalEffectBase.eval", "effector/utils.py:compute_accumulated_effect"]}
{"id": "C91", "title": "Repeating a fit changes nothing", "statement": "For every class, after any history of calls, calling fit a second time with the same arguments has the same outcome as the first call and leaves the object as the first call left it: everything later calls return is the same as if the second call had not been made.", "quantifier": "every global and regional class, history of calls before and after, features argument, centring, binning method, keyword arguments of the search", "why_tests_cant": "the histories before and after the two fits, the features and the data are unbounded", "anchors": ["effector/global_effect_ale.py:ALEBase._fit_loop", "effector/global_effect_pdp.py:PDPBase._fit_feature", "effector/global_effect_shap.py:ShapDP._fit_feature", "effector/regional_effect.py:RegionalEffectBase._fit_feature"]}
{"id": "C92", "title": "A PDP stays within the model's range and no instance has much influence", "statement": "If the model's outputs lie between a and b, an uncentred PDP lies between a and b and its heterogeneity is at most (b-a)/2; a centred one stays within b-a of 0. Exchanging one of the n instances moves an uncentred PDP by at most (b-a)/n at every position, a centred one by at most twice that. The same for d-PDP with the model's derivatives.", "quantifier": "every model with bounded output, data set, exchanged instance, feature, history of calls, list of positions, centring", "why_tests_cant": "the model, the data set and the positions are unbounded", "anchors": ["effector/global_effect_pdp.py:PDPBase.eval", "effector/global_effect_pdp.py:pdp_1d_vectorized", "effector/global_effect_pdp.py:pdp_1d_non_vectorized"]}
{"id": "C93", "title": "The PDP of pooled data sets is the weighted average of their PDPs", "statement": "Cut a data set into any parts (each with an instance within the limits): with the same axis limits the PDP or d-PDP of the whole is the average of those of the parts weighted by their numbers of instances, and its squared heterogeneity is the weighted average of the parts' squared heterogeneities plus the weighted mean of the squared distances of the parts' curves from it.", "quantifier": "every model, data set, way to cut it into parts in any order, feature, histories of calls, list of positions, centring", "why_tests_cant": "the data set, the parts and the model are unbounded", "anchors": ["effector/global_effect_pdp.py:PDPBase.eval", "effector/global_effect_pdp.py:PDPBase._fit_feature"]}
{"id": "C94", "title": "eval without fit is fit with the documented defaults, then eval", "statement": "For every class, after any history of calls in which the feature was not fitted, eval (and plot of the regional classes) has the outcome and the effect on the object of fit(feature, centering=...) with the documented default arguments followed by the same call; if that fit raises, eval raises the same exception.", "quantifier": "every global and regional class, history of calls, feature not fitted so far, positions, centring, heterogeneity flag", "why_tests_cant": "the histories and the data are unbounded", "anchors": ["effector/global_effect_ale.py:ALEBase.eval", "effector/global_effect_ale.py:RHALE.fit", "effector/global_effect_pdp.py:PDPBase.eval", "effector/global_effect_shap.py:ShapDP.eval", "effector/regional_effect.py:RegionalEffectBase.refit"]}
{"id": "C95", "title": "The name of a binning method stands for the object with the default parameters", "statement": "Wherever a binning method is accepted, passing the name 'greedy', 'dp' or 'fixed' has the same outcome and effect as passing Greedy(), DynamicProgramming() or Fixed(), the objects with the default parameters (for ALE.fit: 20 bins with at least 10 points per bin, as documented).", "quantifier": "every name, data set, state of the object, features argument, centring; global and regional classes", "why_tests_cant": "all data sets and states", "anchors": ["effector/binning_methods.py:find_limits", "effector/binning_methods.py:Greedy", "effector/global_effect_ale.py:ALE._fit_feature", "effector/global_effect_ale.py:RHALE.fit", "effector/regional_effect_ale.py:prep_binning_method"]}
{"id": "C96", "title": "Random outcomes do not matter when nothing is sub-sampled", "statement": "When no call has to draw a sub-sample (the fits of RegionalPDP and RegionalDerPDP are not given fewer instances than there are; the region has at most 300 instances for PDP and d-PDP, at most 100 for ShapDP; no condition for ALE and RHALE), a regional object and everything eval returns are the same whatever the outcomes of the random draws, which are new in every call: repeating a call repeats the answer, repeating a fit changes nothing, and evaluating position by position is evaluating at once. Beyond those sizes the answers of two equal calls can differ.", "quantifier": "every regional class, history of calls, outcome of the random draws of each call, region, list of positions", "why_tests_cant": "the random state at each call is not under the control of a test, and the outcomes, histories and data are unbounded", "anchors": ["effector/helpers.py:prep_nof_instances", "effector/regional_effect.py:RegionalEffectBase.eval", "effector/regional_effect_pdp.py:RegionalPDPBase._create_heterogeneity_function", "effector/regional_effect_shap.py:RegionalShapDP._create_heterogeneity_function", "effector/global_effect.py:GlobalEffectBase.__init__"]}
{"id": "C97", "title": "A feature's two names", "statement": "In every class, a feature f of D features can be named f or f - D, as a column of the data can: fit and eval give the same results under both names, whichever name earlier calls used; an integer outside -D, ..., D-1 raises IndexError and leaves the object as it was.", "quantifier": "all classes, data, black boxes, histories of fit and eval calls, features, and choices of name per call", "why_tests_cant": "The claim is about every interleaving of calls under two names of one feature; arrays indexed by the integer and dictionaries keyed by its text agree on some of the interleavings only.", "anchors": ["effector/global_effect.py:GlobalEffectBase.refit", "effector/global_effect_ale.py:ALEBase._fit_loop", "effector/global_effect_ale.py:ALEBase.eval", "effector/global_effect_pdp.py:PDPBase.fit", "effector/global_effect_shap.py:ShapDP.fit", "effector/helpers.py:prep_features", "effector/partitioning.py:Regions.__init__"]}
{"id": "C98", "title": "Terms of the model without the feature do not matter", "statement": "Adding to the model a term that does not depend on feature s changes nothing about feature s: ALE and RHALE (with numerical derivatives, a gradient function, or given effects) give the same effect, heterogeneity and exceptions after any sequence of calls about s; so does d-PDP; the centred PDP/ICE curves and their spread are the same, and uncentred ICE curves are raised by the term's value at the instance. The regional ALE, RHALE and d-PDP partition of s and the effects of all its nodes are the same; for RegionalPDP this holds for an added constant.", "quantifier": "every pair of row-wise models f and f + g with g independent of feature s, every data set, axis limits, sub-sampling, sequence of calls about s, evaluation points, centring", "why_tests_cant": "holds for all models and added terms, all histories", "anchors": ["effector/global_effect_ale.py:ALE._fit_feature", "effector/global_effect_ale.py:RHALE._fit_feature", "effector/global_effect_pdp.py:PDPBase.eval", "effector/regional_effect.py:RegionalEffectBase._fit_feature", "effector/utils.py:compute_local_effects"]}
{"id": "C99", "title": "ALE and PDP agree when they should", "statement": "With equal-width bins (n >= 2) and no empty bin, if the average change of the model between two feature values is the same within every bin as over all instances - in particular when the model is additive in the feature, or when the data form a full factorial design in which every value of the feature comes with the same combinations of the others, whatever the model - then inside every bin ALE.eval is, up to one constant, the straight line through the values PDP.eval returns at the two limits of the bin (the last limit being hi + 1e-8). On factorial data RHALE rises in every bin with the mean of the derivative PDP over the feature values of the bin. For a linear feature RHALE, PDP and the derivative PDP agree exactly, for every binning method.", "quantifier": "every model, dataset, axis limits, number of bins, history of calls on either object, centring and evaluation points", "why_tests_cant": "agreement of two estimators for all models, data and histories; tests compare curves by eye or to a tolerance on one dataset", "anchors": ["effector/global_effect_ale.py:ALE.eval", "effector/global_effect_ale.py:RHALE.eval", "effector/global_effect_pdp.py:PDP.eval", "effector/global_effect_pdp.py:DerPDP.eval", "effector/utils.py:compute_local_effects"]}
{"id": "C100", "title": "Fit-parameter dictionaries are validated and completed", "statement": "helpers.prep_dale_fit_params / prep_ale_fit_params accept a dictionary exactly when every given parameter is valid, keep every given entry unchanged, add the documented default for every missing parameter and nothing else, and completing a completed dictionary changes nothing.", "quantifier": "every dictionary of parameters (or None)", "why_tests_cant": "all dictionaries; a test can only try some", "anchors": ["effector/helpers.py:prep_dale_fit_params", "effector/helpers.py:prep_ale_fit_params"]}
{"id": "C101", "title": "Expectations are taken over the other features", "statement": "utils_integrate.expectation_1D / expecation_2D integrate the model, with the feature of interest fixed, over the other feature(s), each over its own range, weighted with the given density; integrate_1d_quad is the integral of the function.", "quantifier": "every model, density, feature of interest, fixed value and ranges", "why_tests_cant": "an identity between integrals for all functions; quadrature tests compare a few numbers", "anchors": ["effector/utils_integrate.py:expectation_1D", "effector/utils_integrate.py:expecation_2D", "effector/utils_integrate.py:integrate_1d_quad"]}
{"id": "C102", "title": "The model is consulted within the axis limits only", "statement": "Every result about feature s is determined by the model at the instances within the axis limits of s: for PDP/d-PDP with x_s set to the requested positions (and, for centred results, to values within the limits), for RHALE the gradients at these instances, for ALE with x_s moved within the axis limits. Changing the model anywhere else changes no result and no exception.", "quantifier": "every model, gradient function, data set, axis limits, binning methods and history of calls on the feature", "why_tests_cant": "a claim about all pairs of models that agree on a region; a test has one model", "anchors": ["effector/utils.py:compute_local_effects", "effector/bin_splitting.py:BinBase._is_categorical", "effector/global_effect_ale.py:ALE._fit_feature", "effector/global_effect_ale.py:RHALE.compile", "effector/global_effect_pdp.py:PDPBase.eval"]}
{"id": "C103", "title": "The unit of the model's output does not matter", "statement": "Replace the model f by k*f + b (k not 0; gradient or given effects multiplied by k). Then ALE.eval and RHALE.eval of a feature, after any calls about it, return k times the former curve and |k| times the former heterogeneity, or raise the same exception - although RHALE's bins are chosen from the effects; PDP likewise (plus b when uncentred).", "quantifier": "every model, every k != 0 and b, every data set and axis limits, every sequence of fit/eval/plot calls about the feature with any binning method, all positions and centrings", "why_tests_cant": "A test compares two scripts for one model and one factor; whether the data-dependent choice of bins can flip depends on the effects and on the size of the factor.", "anchors": ["effector/bin_splitting.py:_bin_cost,Greedy.find,DP._cost_of_move", "effector/global_effect_ale.py:ALE.fit,RHALE.fit,ALEBase.eval", "effector/global_effect_pdp.py:PDP.eval"]}
{"id": "C104", "title": "The unit of the model's output does not matter for the subregions", "statement": "Replace the model f by k*f + b (k not 0; gradients or given effects multiplied by k) in RegionalRHALE, RegionalALE, RegionalPDP or RegionalDerPDP and multiply heter_small_enough by |k|. After fit, the pruned tree of a feature has the same nodes (names, splitting conditions, instances, weights), with the heterogeneities multiplied by |k|; and the converted threshold is all the user has to take care of.", "quantifier": "every model, every k != 0 and b, every data set, constructor arguments, keyword arguments of fit (thresholds, depth, candidates, binning method, centring), and all histories of calls whose last fits of the feature have those arguments", "why_tests_cant": "A test compares trees for a handful of models and factors; whether some data set makes a greedy split choice, a threshold comparison or the penalty for small subregions flip with the unit needs an argument about the whole search.", "anchors": ["effector/partitioning.py:Regions.search_all_splits,choose_important_splits,splits_to_tree", "effector/regional_effect_ale.py:_create_heterogeneity_function", "effector/regional_effect_pdp.py:_create_heterogeneity_function"]}
{"id": "C105", "title": "What the model does with the array it is handed does not matter", "statement": "A python model receives a reference to an array: it may overwrite it, and it may return a view of it. Constructing a PDP, DerPDP, ALE or RHALE object and making any sequence of fit / eval / plot calls leaves every array of the caller as it was and returns what the same calls return for the mathematical function behind the model - whatever the model does to the arrays it is handed and whether or not what it returns is a view. Not so: (1) the derivative PDP without model_jac and with use_vectorized=False uses one array for both sides of the difference (a model that returns a view gets derivative 0); (2) the constructor without avg_output calls the model on the object's own data; (3) compute_jacobian_numerically calls the model on the data set itself (in regional RHALE: the caller's).", "quantifier": "every callable (any function from contents of the argument to contents afterwards and a fresh or view result), every memory with the caller's arrays, data set, feature, positions, centring, and every history of calls", "why_tests_cant": "A test runs well-behaved lambdas; whether some order of copies, in-place assignments and late reads lets one call disturb another, or the caller's data, needs the memory of the program in the model.", "anchors": ["effector/global_effect_pdp.py:pdp_1d_non_vectorized,pdp_1d_vectorized,PDPBase.fit,PDPBase.eval", "effector/global_effect_ale.py:ALE._fit_feature,RHALE.compile,RHALE._fit_feature", "effector/utils.py:compute_local_effects,compute_jacobian_numerically", "effector/global_effect.py:GlobalEffectBase.__init__", "effector/regional_effect_ale.py:RegionalRHALE.__init__"]}
{"id": "C106", "title": "What the caller does to its arrays after passing them does not matter", "statement": "After constructing a PDP, DerPDP, ALE or RHALE object the caller may overwrite the arrays it passed (data, data_effect, axis_limits) or any other of its arrays at any moment between calls: every later fit, eval and plot gives what it would have given without those writes, and the calls never change the caller's arrays. False for axis_limits, which is kept by reference: each call sees the contents of that array at that moment.", "quantifier": "every schedule: every interleaving of fit/eval/plot calls on the object with the caller's writes into its arrays, all arguments, data sets and callables", "why_tests_cant": "A test tries one interleaving; the claim is about all of them, and about the absence of any shared array.", "anchors": ["effector/global_effect.py:GlobalEffectBase.__init__", "effector/global_effect_ale.py:RHALE.__init__,ALE._fit_feature", "effector/global_effect_pdp.py:PDPBase._fit_feature,PDPBase.eval", "effector/regional_effect.py:RegionalEffectBase.__init__"]}
{"id": "C107", "title": "Nearby models have nearby effects", "statement": "If two models (for d-PDP and RHALE: two derivatives) differ by at most eps everywhere, the PDP and d-PDP curves and heterogeneities on the same data differ by at most eps at every point (2 eps if centred), whatever was called before; the ALE curves differ between two points by at most 2 eps / w times their distance, w the width of the first bin (2 n eps over the whole axis with n equal bins); the RHALE curves with fixed bins by at most eps times the distance of the points; and the ALE and RHALE heterogeneities differ at a point by at most these slopes times the distance of the point from the first limit. A retrained or rounded model thus gives the same picture. False for the greedy (default) bins of RHALE: a change of 1/1000 can change the bins and the curve by more than 1/3.", "quantifier": "all pairs of models, data sets, axis limits, histories of calls (the same for both ALE objects, any for PDP), points, centrings; all positive eps; all Fixed binnings", "why_tests_cant": "Continuity is a statement about all pairs of models and all eps; a test compares one pair.", "anchors": ["effector/global_effect_pdp.py:PDPBase.eval,ice_non_vectorized,ice_vectorized", "effector/global_effect_ale.py:ALE._fit_feature,RHALE._fit_feature,ALEBase.eval", "effector/utils.py:compute_local_effects,compute_ale_params,compute_accumulated_effect", "effector/bin_splitting.py:Greedy.find,Fixed.find"]}
{"id": "C108", "title": "How often the user's code is called", "statement": "Constructing a PDP, DerPDP or ALE object calls the model once, on the rows kept, if avg_output is not given, otherwise not at all. PDP/DerPDP: fit costs nothing per named feature without centering, one call with zero_start, one (vectorized) or points_for_centering calls (not vectorized) with zero_integral; eval at T points costs one call or T calls, plus the fit if the feature is not fitted with this centering; plot costs what eval costs; numerical derivatives cost twice as much; with model_jac the model itself is not called; and every row passed is a row of the data with another value of the feature. ALE: fit calls the model exactly twice per named feature on the rows within the limits, whatever the number of bins and instances; eval and plot of a fitted feature never call it. RHALE: in the whole life of the object the gradient is obtained at most once (one call of model_jac, or 2*D calls of the model), never if data_effect is given. ShapDP: fit calls the explainer once per named feature, eval of a fitted feature never.", "quantifier": "all worlds (user's code with any state, that may raise at any call), all states of the object, all arguments; for RHALE all histories of calls", "why_tests_cant": "The number of calls is a property of every path through the code, including the ones that raise; a counter in a test sees one path.", "anchors": ["effector/global_effect.py:GlobalEffectBase.__init__", "effector/global_effect_pdp.py:PDPBase.fit,PDPBase.eval,PDPBase.plot,pdp_1d_non_vectorized,pdp_1d_vectorized", "effector/global_effect_ale.py:ALE._fit_feature,RHALE.compile,ALEBase.eval,ALEBase.plot", "effector/utils.py:compute_local_effects,compute_jacobian_numerically", "effector/global_effect_shap.py:SHAPDependence.fit,SHAPDependence.eval"]}
{"id": "C109", "title": "If the user's code raises", "statement": "Whenever the model, its Jacobian or the SHAP explainer raises during fit, eval or plot, the exception reaches the caller unchanged and at once (no further call is made), the object remains usable: everything returned later is what it would be without the interruption; an interrupted fit leaves the features before the interruption fitted and the others untouched, an interrupted eval or plot leaves the object as before or as if completed; and the same request made again returns what it would have returned the first time. Holds for ALE and RHALE always. False for PDP, DerPDP and ShapDP with axis limits that exclude instances: the interrupted request has already dropped instances, which changes the other features.", "quantifier": "all histories of requests, all moments at which the user's code raises, all exceptions, all states", "why_tests_cant": "Crash points: a test injects an exception at one call of one history.", "anchors": ["effector/global_effect_pdp.py:PDPBase._fit_feature,PDPBase.fit,PDPBase.eval,PDPBase.plot", "effector/global_effect_ale.py:ALEBase._fit_loop,ALEBase.eval,ALEBase.plot,RHALE.compile", "effector/global_effect_shap.py:SHAPDependence._fit_feature,SHAPDependence.eval"]}
{"id": "C110", "title": "If the user's code raises during a regional fit or eval", "statement": "If no call of the user's code raises, fit and eval of the regional classes do what they do for a model that is a pure function. If one raises: RegionalShapDP passes the exception on at once, and the object is as after a fit of the features before the interrupted one; eval of a fitted feature passes it on, for every class, and leaves the object as it was. In fit of RegionalALE, RegionalRHALE, RegionalPDP and RegionalDerPDP only the exceptions of the first call of each region (the average output) reach the caller. The property one expects, that fit never returns normally after the model raised, is false for them: the exception is lost, the region is given the heterogeneity 1e8 and fit returns normally with other regions, none at all, or a region reported with heterogeneity 1e8.", "quantifier": "all states of the user's code, all moments at which it raises, all exceptions, all arguments of fit and eval, all regions the search visits", "why_tests_cant": "Crash points inside a search: a test injects an exception at one call of one search.", "anchors": ["effector/regional_effect_ale.py:RegionalALE._create_heterogeneity_function,RegionalRHALE._create_heterogeneity_function", "effector/regional_effect_pdp.py:RegionalPDPBase._create_heterogeneity_function", "effector/regional_effect_shap.py:RegionalShapDP._create_heterogeneity_function", "effector/regional_effect.py:RegionalEffectBase._fit_feature,RegionalEffectBase.eval", "effector/partitioning.py:Regions.search_all_splits"]}
{"id": "C111", "title": "What a regional fit or eval may cost", "statement": "Whatever the user's model, gradient or explainer does (it may have a state, answer differently each time, or raise), fit of a regional object makes at most (calls per region) x (1 + (T+1)(2^(L+1)-2)) calls of it for each feature asked for, T being the number of candidate split positions and L the maximal depth - a number that does not depend on the number of rows except through the distinct values of categorical features; eval of a fitted feature makes at most the calls of one region; and every call is about rows of the data in which only the feature being explained has been changed.", "quantifier": "all five regional classes, all user code with state and exceptions, all data, settings, histories", "why_tests_cant": "The cost must be bounded for every model and every data set, and tests count calls on single examples.", "anchors": ["effector/regional_effect.py", "effector/regional_effect_ale.py", "effector/regional_effect_pdp.py", "effector/regional_effect_shap.py", "effector/partitioning.py:search_all_splits"]}
{"id": "C112", "title": "Missing values (NaN) in the data", "statement": "The data array has NaN entries and the model fills them in by some rule before it predicts. (i) The effect of a feature whose values are known - or any feature whose axis limits are given by the user - is the effect of the filled-in data, restricted to the instances in which this feature is not missing: same curve, same heterogeneity, same exceptions (ALE, RHALE, PDP, DerPDP). (ii) A feature with a missing value and inferred axis limits is refused with an exception, and (ideal) this does no harm to the other features of the object. (iii) A split on a feature with missing values never silently loses instances.", "quantifier": "every data set with any pattern of NaN entries, every fill-in rule, every row-wise model or Jacobian, given or inferred axis limits, every binning method, centring and history of calls", "why_tests_cant": "The patterns of missing values, fill-in rules, models and call histories are unbounded; a test fixes one. That the damage is permanent is a statement about all later histories.", "anchors": ["effector/helpers.py:axis_limits_from_data", "effector/global_effect_ale.py:ALE._fit_feature", "effector/global_effect_ale.py:RHALE._fit_feature", "effector/global_effect_pdp.py:PDPBase._fit_feature", "effector/global_effect_pdp.py:PDPBase.eval", "effector/partitioning.py:Regions.split_dataset", "effector/partitioning.py:Regions.find_positions_cont"]}
{"id": "C113", "title": "A NaN prediction is not turned into a number", "statement": "If the user's model returns NaN for a prediction that an effect depends on, the effect is not reported as an ordinary number computed from something else: it is NaN (or the call raises), and every number that is reported is the one a model without the NaN would have given.", "quantifier": "every model, data set, feature, binning, centring, grid of positions, pattern of NaN outputs and (for PDP) every history of calls", "why_tests_cant": "tests use models that always return numbers; which entries are spoilt depends on the NaN pattern, the bins and the interpolation of empty bins", "anchors": ["effector/utils.py:compute_bin_effect", "effector/utils.py:compute_bin_variance", "effector/utils.py:fill_nans", "effector/utils.py:compute_ale_params", "effector/global_effect_ale.py:ALE._fit_feature", "effector/global_effect_pdp.py:PDPBase.eval"]}
{"id": "C114", "title": "NaN gradients in RHALE", "statement": "If some gradients are NaN (Jacobian with NaN entries, given data_effect with NaN entries, or numerical differences of a model that returns NaN), RHALE does not turn them into numbers: the effect on a bin with a NaN gradient is NaN or the call raises; and the bins chosen confine the damage to the neighbourhood of the NaN.", "quantifier": "every data set, pattern of NaN gradients, feature, axis limits, binning method with any parameters, state of the object and history of calls", "why_tests_cant": "which bins are spoilt depends on the data, the pattern and the binning; that dynamic programming always raises is a statement about the whole cost matrix for every number of bins", "anchors": ["effector/bin_splitting.py:BinBase._bin_cost", "effector/bin_splitting.py:Greedy.find", "effector/bin_splitting.py:DP.find", "effector/bin_splitting.py:DP._argmatrix_to_limits", "effector/utils.py:compute_ale_params", "effector/utils.py:fill_nans", "effector/global_effect_ale.py:RHALE._fit_feature", "effector/global_effect_ale.py:RHALE.compile"]}
{"id": "C115", "title": "NaN heterogeneity hides subregions, never invents one", "statement": "If the heterogeneity of some regions comes out as NaN (for instance because a model used by RegionalPDP or RegionalDerPDP returns NaN for some inputs), the subregions reported by a regional fit are those it would report without the NaN values, cut off at some depth: the important splits are a prefix of the NaN-free ones and the pruned tree is the NaN-free pruned tree without its lower levels. A single NaN among the candidates of a level hides that level and all below; a NaN at the root hides everything; without NaN nothing changes.", "quantifier": "every data set, conditioning features, heterogeneity function and every pattern of regions for which it is NaN; every model of RegionalPDP/RegionalDerPDP with any pattern of NaN outputs, any fit arguments and any state of the object", "why_tests_cant": "np.argmax, comparisons and weighted sums treat NaN in three different ways; whether a spurious split can slip through is a statement about all patterns of NaN over all candidates of all levels", "anchors": ["effector/partitioning.py:Regions.search_all_splits", "effector/partitioning.py:Regions.single_level_splits", "effector/partitioning.py:Regions.choose_important_splits", "effector/partitioning.py:Regions.splits_to_tree", "effector/regional_effect_pdp.py:RegionalPDPBase._create_heterogeneity_function"]}
{"id": "C116", "title": "Missing values in the conditioning features of a regional fit", "statement": "Data with NaN entries and a regional fit whose heterogeneity is BIG_M on too small regions and never negative. (1) At every depth of the pruned tree the subregions together contain every instance exactly as often as the data: no instance is lost because a value is missing; a reported split of a continuous feature is on a feature without missing values. (2) The reported splits (feature, position, candidates, numbers of instances, heterogeneities) are exactly those reported when the user passes only the conditioning features that are categorical or complete: a continuous conditioning feature with a single missing value is silently ignored, and if all are of this kind nothing is reported. (3) For RegionalPDP and RegionalDerPDP with a model that imputes internally (feature of interest and categorical conditioning features complete) the reported splits are those of the fit on the imputed data with only the complete conditioning features.", "quantifier": "all data sets with missing values anywhere, all heterogeneity functions (that may raise), conditioning features, types, thresholds, depths; for (3) all imputing models and imputation functions", "why_tests_cant": "a test uses one data set; the interplay of NaN candidates, empty parts, BIG_M and the relative-drop test must be followed through every level for every data set", "anchors": ["effector/partitioning.py:Regions.single_level_splits", "effector/partitioning.py:Regions.search_all_splits", "effector/partitioning.py:Regions.choose_important_splits", "effector/partitioning.py:Regions.split_dataset", "effector/partitioning.py:Regions.find_positions_cont", "effector/partitioning.py:Regions.find_positions_cat", "effector/regional_effect_pdp.py:RegionalPDPBase._create_heterogeneity_function"]}
{"id": "C117", "title": "A regional fit with random sub-samples, or with a model that does not answer the same twice", "statement": "Regional fit where every measurement of the heterogeneity of a region has its own outcome of np.random.choice (fit(nof_instances=n)) and the model, derivative or explainer may answer, or raise, differently at each call. (1) Whatever is drawn, answered or raised, for every feature the object holds exactly what it held before, or trees that are sound over the data: complete, a partition at every level, each node with exactly the instances meeting its and its ancestors' conditions, correct counts and weights, conditions at candidate positions of the conditioning features, only regions of at least min_points instances split, the pruned tree the top of the full one; and sound trees for all features asked for if fit returns. (2) At each level every candidate (and nothing else) was measured once, the split taken has the largest drop of the values measured then, and the heterogeneities stored in the nodes are those of one more measurement made afterwards. (3) The search returns if the arguments are in range and every measurement is between 0 and 1e8. (4) With nof_instances='all' (and for RHALE, ALE always) outcomes of draws have no effect at all.", "quantifier": "all data sets, arguments of fit, sequences of outcomes of the draws, stateful models that may raise at any call, states of the object before the call", "why_tests_cant": "the outcomes of the random generator and the answers of a stochastic model are not under the control of a test, and a fit makes a different draw for each of the many regions it measures", "anchors": ["effector/partitioning.py:Regions.search_all_splits", "effector/partitioning.py:Regions.single_level_splits", "effector/partitioning.py:Regions.splits_to_tree", "effector/regional_effect.py:RegionalEffectBase._fit_feature", "effector/regional_effect_pdp.py:RegionalPDPBase._create_heterogeneity_function", "effector/helpers.py:prep_nof_instances"]}
{"id": "C118", "title": "Sub-sampling is right on average for PDP and d-PDP", "statement": "PDP or DerPDP constructed with nof_instances=n below the number N of instances: averaged over all outcomes of the random draw (which are equally likely), the curve returned by eval is at every position exactly the curve that the object with all instances returns, while the square of the heterogeneity is on average exactly (n-1)/n * N/(N-1) times that of all instances, i.e. too small. This holds with axis limits that contain the data for any centring, and with default limits without centring; likewise for eval of a region of more than 300 instances, of which every call draws 300. It is false for ALE, where a draw can empty a bin.", "quantifier": "every model (row-wise; every Jacobian for d-PDP), data set, n with 0 < n < N, axis limits, history of calls, positions, centring; all N!/(N-n)! outcomes of the draw", "why_tests_cant": "a statement about the average over all outcomes of np.random.choice, whose number grows like N!/(N-n)!; a test runs one outcome", "anchors": ["effector/helpers.py:prep_nof_instances", "effector/global_effect.py:GlobalEffectBase.__init__", "effector/global_effect_pdp.py:PDPBase.eval", "effector/regional_effect.py:RegionalEffectBase.eval"]}
{"id": "C119", "title": "Sub-sampling is right on average for ALE and RHALE with fixed bins that no draw can empty", "statement": "ALE or RHALE with nof_instances=n below the number N of instances and given axis_limits, fitted with Fixed bins each of which holds more than N - n instances: averaged over all equally likely outcomes of the draw, the curve eval returns is at every point, and with every centring, the curve for all instances; with min_points_per_bin=0 and fewer bins than drawn instances every draw gets an answer.  (C118 shows that this fails as soon as one draw can empty a bin.)", "quantifier": "every data set, model, gradient function or given effects, n, axis limits containing the instances, number of bins meeting the condition, evaluation points, centring; all outcomes of the draw", "why_tests_cant": "the claim is about the average over all N!/(N-n)! draws and all data sets; a test sees a few draws", "anchors": ["effector/global_effect_ale.py:ALE, RHALE", "effector/utils.py:compute_ale_params", "effector/helpers.py:prep_nof_instances"]}
{"id": "C120", "title": "How far a sub-sampled PDP is from the full one", "statement": "PDP/DerPDP built with nof_instances=n out of N instances (0 < n < N; the default is 10000, RegionalPDP/RegionalDerPDP always use 300 per region): at every position, over the outcomes of the random draw, the squared difference between the returned curve and the curve of the object with nof_instances='all' is on average (N-n)/(n(N-1)) times the square of the heterogeneity the full object reports there; a difference of t or more is at most that / t^2 likely; and if the model (its derivative) only takes values between a and b, no draw whatsoever is off by more than (1-n/N)(b-a) (twice that for a centred curve), a bound that is attained.", "quantifier": "all data sets, models, n < N, features, positions, centring modes (with given limits), histories of fit/eval calls on either object, all outcomes of the draw", "why_tests_cant": "It is a statement about the distribution over all outcomes of the random draw (and, in the worst case, about every one of them); a test sees a few seeds.", "anchors": ["effector/helpers.py:prep_nof_instances", "effector/global_effect.py:GlobalEffectBase.__init__", "effector/global_effect_pdp.py:PDPBase.eval", "effector/regional_effect_pdp.py:RegionalPDPBase", "effector/regional_effect.py:RegionalEffectBase.eval"]}
{"id": "C121", "title": "Interchangeable features have the same effect", "statement": "If the model does not distinguish two features (exchanging their values never changes the output; for a Jacobian: its entries are exchanged), and neither does the data set (exchanging the two columns only re-orders the instances), and their axis limits are equal or left to the library, then after the same calls eval returns for both features the same curve and the same heterogeneity, or raises the same exception: ALE (all binning methods), RHALE (model_jac, finite differences or given data_effect), PDP and DerPDP.", "quantifier": "all models, data sets, pairs of features, axis limits, histories of calls, positions, centring modes", "why_tests_cant": "It ranges over all symmetric models and data sets and all histories; a test would use one model, one data set.", "anchors": ["effector/global_effect_ale.py:ALE", "effector/global_effect_ale.py:RHALE", "effector/global_effect_pdp.py:PDP", "effector/global_effect_pdp.py:DerPDP"]}
{"id": "C122", "title": "A PDP has every shape that all ICE curves have", "statement": "Every linear inequality between the values at the evaluated positions that all ICE curves (instances inside the limits) satisfy is satisfied by the PDP and d-PDP curve, centred ones if the weights add up to 0: in particular, if the model is convex (concave, linear) in the feature for every instance, so is the curve, and positions the model does not distinguish (periodic, step-like, symmetric models) get the same value and the same heterogeneity. ALE and RHALE have no such property when there are interactions (the bins average over different instances); RHALE has it when the derivative does not decrease from an instance to one with a larger value of the feature (a convex main effect, no interaction): then the curve is convex, for all binning methods, with empty bins filled in, after any history and for any centring.", "quantifier": "all models, data sets, limits, histories of calls, positions, weights, centring modes", "why_tests_cant": "It ranges over all inequalities, models and data sets.", "anchors": ["effector/global_effect_pdp.py:PDPBase.eval", "effector/global_effect_pdp.py:pdp_1d_vectorized", "effector/global_effect_ale.py:ALE"]}
{"id": "C123", "title": "Zero heterogeneity means no interaction on the data", "statement": "The band that eval(heterogeneity=True) returns has width 0 exactly where the instances agree. PDP/d-PDP: at an evaluated position the deviation is 0 exactly if all instances in use have the same (centred) output there, and between two such positions every instance's output changes by the same amount, the change of the curve. ALE/RHALE: where it is 0 at a position (up to 1e8), any two instances in the same stored bin to the left of it have the same effect (RHALE: derivative; ALE: change of the output from the left to the right limit of the bin); if this holds in every bin it is 0 everywhere. RegionalPDP/RegionalDerPDP: a region's heterogeneity is 0 exactly if it has enough instances, limits and centering are accepted, and all its instances in use have the same output at the ten evaluated points.", "quantifier": "every model, data set, axis limits, feature, history of calls, centring, binning method in force and list of positions", "why_tests_cant": "The 'exactly if' ranges over all models and data sets: a test can only show examples with and without interaction.", "anchors": ["effector/global_effect_pdp.py:PDPBase.eval", "effector/global_effect_ale.py:ALEBase.eval", "effector/utils.py:compute_bin_variance", "effector/utils.py:compute_accumulated_effect", "effector/regional_effect_pdp.py:RegionalPDPBase._create_heterogeneity_function"]}
{"id": "C124", "title": "Within a bin, ALE and RHALE only depend on what is in the bin", "statement": "Two RHALE objects (different data, derivatives, axis limits, earlier calls, centring) that store the same bin limits for a feature, and of which the instances inside one bin have the same derivatives (in any order): between any two positions inside this bin (up to 1e8) both curves change by the same amount, and so do the heterogeneities if the bin has at least two instances. For ALE the same holds if the instances in the bin are the same and the two models agree on them with the feature set to the two limits of the bin (nothing is asked of the models anywhere else). A PDP has no such property: another instance far away changes it everywhere.", "quantifier": "every two models, data sets, axis limits, histories of calls, centrings, binning methods in force that lead to the same limits, and lists of positions", "why_tests_cant": "It compares all pairs of objects that agree in one bin and are arbitrary elsewhere.", "anchors": ["effector/global_effect_ale.py:ALEBase.eval", "effector/utils.py:compute_ale_params", "effector/utils.py:compute_accumulated_effect", "effector/utils.py:compute_local_effects"]}
{"id": "C125", "title": "The scale on which a feature is measured does not matter to its PDP", "statement": "Measure a feature on another, strictly monotone scale (logarithm, rank, reversed axis; the other columns rewritten in any way; model and axis limits converted alike): PDP.eval at the converted positions returns the same average, heterogeneity and ICE curves, or raises the same exception, without centering and (scale not reversed) with zero_start; with any other centerings the two average curves differ by one number. DerPDP with a Jacobian: times 1/phi' at each position, the heterogeneity times its absolute value. Limits left to the library convert by themselves. ALE and RHALE do depend on the scale (their bins have equal widths on it).", "quantifier": "every strictly monotone scale, model, data set, axis limits, histories of calls on both sides, centering, positions", "why_tests_cant": "It ranges over all monotone changes of scale and all models.", "anchors": ["effector/global_effect_pdp.py:PDPBase.eval", "effector/global_effect.py:GlobalEffectBase.__init__", "effector/helpers.py:axis_limits_from_data", "effector/global_effect_ale.py:ALEBase.eval"]}
{"id": "C126", "title": "Pooling data sets in ALE and RHALE", "statement": "Objects for several data sets and one for all of them together (any earlier calls, any centering) that store the same bin limits for a feature, e.g. fixed bins over the same axis limits. Between two positions in a non-empty bin (up to 1e8) the curve of the whole changes by the average of the changes of the parts, weighted by their numbers of instances in the bin; if no part has exactly one instance in the bin, the square of the change of the heterogeneity is the weighted average of the parts' squares plus the weighted average of the squared differences of the changes (the law of total variance).", "quantifier": "every number of data sets, model / derivatives, histories of calls, centerings, binning methods that lead to the same limits, bins and positions", "why_tests_cant": "It ranges over all ways of cutting all data sets.", "anchors": ["effector/global_effect_ale.py:ALEBase.eval", "effector/utils.py:compute_ale_params", "effector/utils.py:compute_bin_effect", "effector/utils.py:compute_bin_variance"]}
{"id": "C127", "title": "The units of the conditioning features do not matter to the subregions", "statement": "Convert the conditioning features of a table - the numerical ones to other units (a x + b, a > 0), the categorical ones to other codes in the same order - leave the feature of interest as it is, and give the library the model (and derivatives) of the converted table: RegionalRHALE, RegionalALE, RegionalPDP and RegionalDerPDP find the same subregions. The full and the pruned tree have the same nodes, with the same conditioning features, comparisons, heterogeneities, weights, and the converted instances; only the positions of the splits are converted. Same exceptions in the search. (Any heterogeneity function that does not notice the conversion will do, so also a user's own in the search.) For other increasing scales of a numerical feature, such as its logarithm, this is false, because the candidate positions are equally spaced.", "quantifier": "every table, conversion, model, arguments of fit, histories of calls on both objects, depth of the search", "why_tests_cant": "It compares two searches over candidate splits for all conversions and data; tests can try a few.", "anchors": ["effector/partitioning.py:Regions.search_all_splits", "effector/partitioning.py:Regions.choose_important_splits", "effector/partitioning.py:Regions.splits_to_tree", "effector/regional_effect.py:RegionalEffectBase._fit_feature"]}
{"id": "C128", "title": "The order of the columns, and columns that are not asked about, do not matter to the subregions", "statement": "Take a table and a model that uses only some of its columns. A regional object built for that table and model, and one built for the table with only those columns (in any order), find the same subregions of a feature when fitted with the same arguments and the same, explicitly listed, conditioning features: the same full and pruned tree, with the same splits, positions, instances, heterogeneities and node names; and eval at a node of it gives the same values. So identifier columns, or the order of the columns, do not matter. If the conditioning features are left to the library ('all'), this is false: the unused columns take part, and the first of two equally good ones wins.", "quantifier": "every table, every choice and order of columns, every model of them, all methods (for SHAP: every explainer that gives the columns the same values whether or not it sees the others), all fit arguments with listed conditioning features, all call histories", "why_tests_cant": "tests fit tables whose columns are all conditioning features, in one order", "anchors": ["effector/partitioning.py:Regions.search_all_splits", "effector/partitioning.py:Regions.choose_important_splits", "effector/partitioning.py:Regions.splits_to_tree", "effector/regional_effect.py:RegionalEffectBase._fit_feature", "effector/regional_effect.py:RegionalEffectBase.eval", "effector/regional_effect_shap.py:RegionalShapDP"]}
{"id": "C129", "title": "The ShapDP of a feature the model is additive in is a matter of this feature alone", "statement": "Let the explainer compute exact Shapley values, with the explained instances as background. If the model is a function g of one feature plus a function of the others, the values ShapDP fits its curve to are g at the instance minus the mean of g; and a ShapDP object answers every question about this feature (after any calls about it, with any sub-sampling) exactly as one built on the table with only this column and with g as the model. More generally, whenever the explainer gives some columns the same values whether or not it sees the others, a ShapDP session about one of them answers as on the table with only these columns. With an interaction it is false: two instances with the same value of the feature get different Shapley values.", "quantifier": "every table, every model additive in the feature, every curve fit, every nof_instances and outcome of the draw, every history of calls about the feature, all positions and centerings", "why_tests_cant": "tests use a small linear model, whose SHAP values they compare at a tolerance", "anchors": ["effector/global_effect_shap.py:ShapDP.__init__", "effector/global_effect_shap.py:ShapDP._fit_feature", "effector/global_effect_shap.py:ShapDP.fit", "effector/global_effect_shap.py:ShapDP.eval"]}

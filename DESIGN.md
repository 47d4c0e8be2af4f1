# Formal model of givasile/effector in Lean 4 — design

The first version of this file was committed before the proofs; sections 2–6 have been kept up to date as the model grew.
The status of each property is in `MANIFEST.json`, the axioms of every theorem in `AXIOMS.md`, the seeded-error experiments in
`seeded/LOG.jsonl`.

## 1. Shape of the model

* Lake project `/verif/lean`; build with `lake build` there (`Verif.lean` imports every module).
  * `Verif/Model/*.lean` — the model, function by function; every definition cites the file and lines of `/repo` it models and
    says where it simplifies.
  * `Verif/Spec.lean` — the specification vocabulary (integral of a step function, mean, population variance, sub-list inside a
    bin, equally spaced points, cell centres, partitions, ...). Nothing in it is used by the model and it uses nothing of the model.
    Further specification notions that only one property needs are defined in `namespace Spec` next to their theorems.
  * `Verif/Lemmas/*.lean` — helper lemmas.
  * `Verif/Props/*.lean` — the property theorems (`C01_…`, `C02_…`), with concrete instances that meet their hypotheses beside them
    (`example`s and theorems `…_hypotheses_met`, evaluated by the kernel at `K = ℚ`).

| Python | Lean |
|---|---|
| numpy primitives used (`linspace`, `digitize`, `bincount`, `interp`, `argmin`, `unique`, `cumsum`, `allclose`, ...) | `Model/Numpy.lean` |
| `utils.py`, `utils_integrate.py` | `Model/Utils.lean` |
| `helpers.py`, `GlobalEffectBase.__init__` | `Model/Helpers.lean` |
| `bin_splitting.py`, `binning_methods.py` | `Model/BinSplitting.lean` |
| `global_effect_ale.py` (ALE, RHALE: constructor, fit, eval, plot) | `Model/Ale.lean` |
| `global_effect_pdp.py` (PDP, DerPDP, the free functions `pdp_1d_*`, `pdp_nd_*`) | `Model/Pdp.lean` |
| `global_effect_shap.py` | `Model/Shap.lean` |
| `partitioning.py` (`Regions`, `Tree`, `Node`, `DataTransformer`) | `Model/Partitioning.lean` |
| the same search with a heterogeneity function that may raise | `Model/SearchM.lean` |
| `regional_effect.py`, `regional_effect_*.py` (state, eval, plot) | `Model/Regional.lean` |
| the four regional `fit` methods and constructors | `Model/RegionalFit.lean` |
| `visualization.py` and the `plot` methods: the numbers handed to matplotlib | `Model/Plotting.lean` |
| `show_partitioning`, `describe_subregions`, level statistics | `Model/Reports.lean` |
| `interaction.py` (call binding) | `Model/Plotting.lean` |

* Numbers: a generic linearly ordered field `K` (`Field K`, `LinearOrder K`, `IsStrictOrderedRing K`). Everything is executable at
  `K = ℚ` (used in examples and counterexamples, evaluated by the kernel through `decide`); the theorems hold for `ℝ` as well, and
  the properties about limits, integrals and derivatives are stated over `ℝ`. `np.sqrt`/`np.std` use a class `PySqrt K`, with the
  laws of a square root in `LawfulSqrt K` (instance: `ℝ`, `Lemmas/RealSqrt.lean`).
* NaN is `none : Option K` wherever the code produces or tests NaN; comparisons with NaN are `false`.
* Python exceptions are values: `Except PyErr α` (`Py α`). Which exception is raised is part of the result.
* Rows of a data set are functions `Fin D → K`; a data set is a list of rows; column assignment is `Function.update`.
* The black box is a function on batches `List (Fin D → K) → List K`; theorems that need it assume that it is row-wise (`List.map f`).
* Objects with state (`ALE`, `RHALE`, `PDP`, `DerPDP`, `ShapDP`, `RegionalX`) are records; `fit`/`eval`/`plot` return the new state
  (also when they raise) and the result; histories are arbitrary lists of public calls.
* Random choice (`np.random.choice(..., replace=False)`) is a parameter constrained to what numpy guarantees.
* External libraries (`shap.Explainer`, `UnivariateSpline`) are parameters: arbitrary functions, constrained only where a theorem says so.

## 2. Plan per property

| id | model | proof idea |
|----|-------|-----------|
| C01 | `compute_accumulated_effect` (digitize, cumsum, sentinel) | induction over bins against `Spec.stepIntegral`; refuted beyond 1e8 |
| C02–C04 | `compute_bin_effect`, `compute_bin_variance` with `digitize`, `bincount` | counting lemmas over lists |
| C05 | `fill_nans` with `np.interp` | interpolation lemma by induction over the known points |
| C06 | `compute_ale_params` | composition of the above |
| C07–C10 | `compute_local_effects` + parameters + `ALE._fit_feature` | telescoping sum over bins; refuted for uneven categorical values |
| C11, C12 | whole sessions incl. constructor and binning | permutation/filter invariance of each primitive, then of the state machine |
| C13 | `_eval_unnorm` | from C01 with non-negative steps |
| C14–C17, C21–C24 | `bin_splitting.py`, `binning_methods.py` | loop invariants of the greedy merge |
| C18–C20 | DP table and back-tracking | induction over the bin index: table = minimum over all paths |
| C25–C32 | state machines of `ALEBase`, `PDPBase`, `SHAPDependence` | invariants over operation lists (`Tracks`, `lastFit`) |
| C33–C38 | `pdp_1d_*` and the PDP objects | list reshaping lemmas, algebra |
| C39–C49 | `partitioning.py` | induction over splits/levels; heap-shaped trees |
| C50 | `regional_effect.py` | invariant over regional histories, then unfolding of `_create_fe_object` at the node |
| C51–C54 | `helpers.py` | direct |
| C55 | mutation of `limits` made explicit as a returned value | exact effect for all inputs; refuted |
| C56 | keyword binding of the calls | the calls always raise: negation proved for every history |
| C57 | the numbers passed to matplotlib by `ale_plot` | algebra; refuted for a single scaling |
| C58 | `utils_integrate.py` | algebra; refuted for `integrate_1d_linspace` |
| C59 | regional state machine with its cached (scaled) trees | invariant over histories; refuted by a two-fit history |
| C60 | `pdp_nd_vectorized`/`_non_vectorized` | list lemmas; refuted for the loop version |
| C61 | `Regions.search_all_splits` as a state machine | totality of every index/division along the search |
| C62 | `RegionalX.plot` | composition with C59/C57; refuted for RegionalALE |
| C63 | `compute_local_effects` | exact value; refuted in the last bin and for uneven bins |
| C64, C65 | `plot_pdp`/`plot_shap` numbers | algebra over all scalings; refuted for std_err, DerPDP scaling, missing scatter |
| C66 | node heterogeneities | induction over the search |
| C67 | printed reports as data | composition with C59; refuted for zero heterogeneity |
| C68 | the heterogeneity functions of the four regional methods | case split over every failure path |
| C69 | ShapDP histories | invariant; refuted with user limits |
| C70 | `get_feature_types`, `_is_categorical` | `npUnique` counts distinct values |
| C71 | regional `fit` of each method | C61 + C68 (nothing raises inside the search) |
| C72 | ShapDP sessions | permutation invariance; spline assumed symmetric or values distinct |
| C73 | evals of all methods | slopes of the accumulated curve lie between bounds of the local effects |
| C74 | DerPDP vs PDP | derivative of a finite average (`ℝ`) |
| C75 | `plot` average line and bars | composition; refuted for PDP/ShapDP outside limits |
| C76 | ALE/RHALE of additive models | mean value theorem per bin, sum of errors (`ℝ`) |
| C77, C79 | search + heterogeneities | a split with zero remaining heterogeneity is minimal; zero heterogeneity is never split |
| C78 | ALE/RHALE fit success | exact characterisation of every failing path |
| C80 | conditions of tree nodes | induction over levels |
| C81 | whole regional objects built by the public constructors | `regRunM`: invariants over all histories of public calls |
| C82, C83, C85 | whole sessions | simulation between the session on the original and on the changed data |
| C84 | whole sessions in another unit | simulation; refuted where absolute constants enter |
| C86 | regional PDP trees | induction over levels with C40 + law of total variance; refuted above 300 rows, where it holds on average over the draws (by C118) |
| C87 | PDP/d-PDP objects with any history; RHALE construct-fit-eval with fixed bins | Minkowski for population variance, carried through `fill_nans` (closure of a root-free inequality under convex combination), linearity of step integrals |
| C88 | `Greedy.find_limits`, fitted RHALE | induction along the grid scan: closed exactly at the first boundary worth closing |
| C89 | the five regional classes, from the constructor to `eval` | simulation: regions related by a permutation of (row, effect) pairs through search, trees and node evaluation |
| C90 | `eval` of all classes, global and regional | decomposition of `eval` on a list into its first position and the rest; a second call leaves the state as it is (`Settles`) |
| C91 | `fit` of all classes, global and regional | loops whose steps are idempotent, commute and have state-independent results can be repeated; refuted for PDP, d-PDP and ShapDP with excluding limits (`self.data` is overwritten) |
| C92 | PDP/d-PDP `eval` after any history | means and deviations of bounded values (Popoviciu), exchange of one entry |
| C93 | PDP/d-PDP `eval` of a data set and of its parts | law of total expectation and variance over list partitions |
| C94 | `eval` of all classes, `plot` of the regional ones | unfolding of `refit`; a successful fit leaves the feature fitted with the requested centring |
| C95 | `find_limits`, `fit` of ALE and RHALE, `prep_binning_method` | equality of the fits on every state; refuted by four rows |
| C96 | all regional calls with a new outcome of `np.random.choice` per call (`reseed`, `freshRun`) | the search is determined by the heterogeneity function on regions no larger than the data; there no draw is made; induction over the history; refuted for 302 instances and for `fit(nof_instances=2)` |
| C97 | `fit`/`eval` of the global classes with python integers as names (`Model/Indices.lean`: arrays indexed by the integer, dictionaries keyed by it); the conditioning features of a regional fit | simulation: the view of the object under one name per column is the state of the model over columns; refuted for mixed names and for regional fits with a negative name |
| C98 | two models whose difference does not depend on the feature, through the global classes (any session) and the regional classes (any session; search, trees, evaluations) | the local effects of the feature are equal, so the fitted bins are; regional: simulation of two objects on the same instances whose effects agree in one column; PDP: the closed forms of C30 |
| C99 | ALE/RHALE and PDP/DerPDP sessions on one `Base` | bin effects for `Fixed(n)` written as averages over the rows of the bin, compared with averages over all rows (`Balanced`); induction over the bin limits. `Props/MethodsAgree.lean` |
| C100 | `prep_dale_fit_params`, `prep_ale_fit_params` on association lists in insertion order; the caller's dictionary after the call (`Model/Extras.lean`) | one lookup equation per step, composed |
| C101 | `integrate_1d_quad`, `expectation_1D`, `expecation_2D` with the quadrature as a parameter, instantiated with Mathlib's interval integral | unfolding to the integrand row by row; constants for the counterexample |
| C102 | the fit functions of ALE/RHALE and the PDP specification, for two models at once | the limits are bounded by the axis limits; congruence of the fit, then of every call |
| C103 | whole ALE/RHALE sessions of f and of k*f + b | the greedy comparisons are invariant under scaling; the DP search as long as valid costs stay below 1e8 (Lemmas/DpScale); eval by the superposition lemmas for k and 1/k |
| C104 | two searches whose heterogeneities differ by a factor q (or are the penalty 1e8 in both); the regional objects for f and k*f + b | levelwise induction: while splits lower the heterogeneity enough, the sets tried are the same and the weighted heterogeneities are converted, so the argmin is the same (Props/RegionUnits); the tree node by node (RegionUnitsTree); each class's heterogeneity function is converted (RegionUnitsApi) |
| C105 | arrays as objects (`Model/Heap.lean`): a memory of two-dimensional arrays, callables that may write into their argument and return views, the routines that call the model written statement by statement in a state monad | refinement: each routine run on memory `h` returns the value of the pure model (the one used for all other properties, with `m.value` as the black box) and a memory that extends `h`; invariant over histories; counterexamples for the three places where it fails |
| C106 | schedules: calls interleaved with the caller's writes into its own arrays and into `axis_limits` (`heapSched`, `heapAleSched`) | invariant: the arrays of the object lie beyond the caller's; each call sees the selected rows of construction time and the current limits; induction over the schedule |
| C107 | pairs of objects for two models at distance at most eps | linearity (C10, C87) reduces the difference of the curves to the curve of the difference of the models; range (C92) and slope bounds (C73) for a model that stays in [-eps, eps]; triangle inequality for the heterogeneity |
| C108 | the classes with every call of the user's code as an effect (`Model/Calls.lean`: the state of the user's code, a ghost list of the calls made, the object) | each program is shown to make a list of calls that is known beforehand (`Spec.Runs`), stopping at the first that raises; lengths and members of these lists, by induction over the features |
| C109 | histories of requests when the user's code raises at arbitrary moments, with a state of its own (`Account`) | `Spec.Runs` says what the object is after each prefix of the calls; induction over the history; for trying again, the loop over features is repeatable (C32) |
| C110 | the regional classes with every call of the user's code an effect (`Model/RegionalCalls.lean`): heterogeneity functions, search, `fit`, `refit`, `eval` | `Means`/`Agrees`: if nothing raises, the program has the value and the effect on the object of `Model/RegionalFit.lean`, compositionally through the search; `Propagates`/`Swallows` for what happens to an exception |
| C111 | `Model/RegionalCalls.lean`: `fit`, `eval` of the regional classes | `Asks`: a Hoare-like triple with a bound on the number of calls and a predicate on each call; the bound is added up through constructors, `fit`, `eval`, the candidates, the levels and the loop over the features; an invariant on the stored regions for `eval` |
| C112 | `Model/Missing.lean`: rows `Fin D → Option K`; axis limits, masks, ALE/RHALE fit, the whole PDP object, splitting, all with NaN semantics; the user's model sees the NaN entries and returns numbers | a fill-in rule `imp` that commutes with setting the feature: ALE/RHALE reduce to `CfgSame` (C82's tool), PDP to a simulation between the two objects; for a NaN limit: no instance passes the mask, `find_limits` raises on an empty column (ALE/RHALE), `self.data` is empty for ever (PDP, invariant) |
| C113 | `Model/NanOutput.lean`: model outputs in `Option K` (NaN = `none`), NaN-propagating subtraction, means, deviations; `compute_ale_params` with `fill_nans` on NaN bins; the whole PDP object with NaN outputs | ALE: characterises what is reported as the effect of the data with the spoilt bins emptied (hence `C113_false_ale`); PDP/DerPDP/ICE: a simulation against any model that agrees where the output is a number, each reported entry is NaN or equal |
| C114 | `Model/NanGradient.lean`: `_bin_cost`, `Greedy.find`, `DP.find` (the NaN-aware matrices of `Model/BinSplitting.lean`), `RHALE._fit_feature/compile/__init__` with effects in `Option K` | fixed/greedy: the limits are well formed (sublist of the grid), then C113's characterisation of `compute_ale_params`; greedy: invariant of the merging loop; DP: every entry of every later column is NaN (induction on the column), hence the back-tracked indices are `[0,K]` or `[0,i,0,K]` |
| C115 | `Model/NanSearch.lean`: `single_level_splits`, `search_all_splits`, `choose_important_splits`, `splits_to_tree` with heterogeneities in `Option K` (`np.argmax` = first NaN, comparisons with NaN false, sums propagate); `RegionalPDP/RegionalDerPDP` heterogeneity on top of `Model/NanOutput.lean` | level by level: either the same split is chosen or the weighted heterogeneity of the chosen one is NaN (because its drop is), which `choose_important_splits` rejects; the tree of a prefix of the splits is the top of the tree (induction on the levels) |
| C116 | `Model/MissingSearch.lean`: the search of partitioning.py on rows with NaN entries, effects and heterogeneities numbers or exceptions; `RegionalPDP/RegionalDerPDP` heterogeneity on such rows | a split on a continuous feature with a missing value has weighted heterogeneity `BIG_M` and is rejected, by induction over the levels every kept split is a partition; the argmax over the matrix restricted to the usable rows is the same entry, or the chosen one and the restricted one are both rejected; on complete conditioning features the search is a refinement of the search on filled-in data (`mSearch_fills`, with `C112`'s simulation of PDP) |
| C117 | `Model/RandomFit.lean`: `fit` with `np.random.choice` as a function of the state of the world, called before each measurement of a region, over the stateful programs of `Model/RegionalCalls.lean` | inversion of the program of a search that returned gives the table of everything that was measured; induction over the levels gives sound splits, C43/C44's heap lemmas a sound tree; induction over the features with a frame condition for the rest of the object; a Hoare triple `Returning` for totality |
| C118 | `np.random.choice(N, n, replace=False)` as the uniform choice of an embedding `Fin n ↪ Fin N` (`Spec.outcome`, `Spec.expected`): numpy's distribution is part of the trusted base here | permutations of `Fin N` act transitively on the embeddings, so the indices at given places are distributed like a draw of that many (`expected_places`); with one place the mean, with two places the variance (as sum over pairs); `pdp_eval_spec` turns `eval` into means over the drawn rows |
| C119 | as C118 (uniform embeddings), the whole session constructor / `fit` with `Fixed` / `eval` of ALE and RHALE (`Spec.aleSampled`, `Spec.rhaleSampled`) | the mean over the drawn members of a group no draw misses is right on average (by symmetry under swaps of members of the group); the curve, centred or not, is linear in the bin effects with coefficients that depend on the limits only |
| C120 | as C118; the difference between the curve of a draw and the curve of all instances | mean squared error by the decomposition of squared deviations (`sum_sq_dev`) and C118 for the mean and the variance; Chebyshev by counting outcomes; worst case by splitting the sum into drawn and not drawn instances |
| C121 | sessions of ALE, RHALE, PDP, DerPDP for two features; `Spec.exchanged`, `Spec.SymmetricData` | exchange of two columns is a rewriting of the table (C85) after which the instances are only re-ordered (C11, C36) |
| C122 | PDP/DerPDP sessions (`pdpEvalAfter`); inequalities as weights on the evaluated positions (`Spec.weighted`) | the curve is the mean of the centred ICE curves (C33); weighted sums commute with the mean, centring constants cancel when the weights add up to 0 |
| C123 | standard deviations zero ↔ agreement: population variance 0 ↔ all equal, accumulated non-negative deviations 0 ↔ all to the left 0, bins with ≥ 2 instances keep their variance through fill_nans; the stored bins after any history from `Tracks` (ZeroHeterogeneity.lean) |
| C124 | the stored limits determine the bins; the change of the accumulated curve inside bin k is effect_k·(z−x), and effect_k and its variance depend only on the multiset of local effects in bin k (fill_nans does not touch non-empty bins) (Locality.lean) |
| C125 | from the value of `eval` after any history (C31): the instances within the limits are the rewritten ones, the model values are equal, the centring constant is that of the same (or another) point (Rescaled.lean) |
| C126 | the change inside a bin is mean·(z−x), that of the heterogeneity std·(z−x) (from C124's lemmas); mean and variance of concatenated lists (Levels.lean) (Pooling.lean) |
| C127 | the split of a region, the matrix of candidate evaluations and every loop commute with the conversion (positions are affine in min and max; unique values are monotone); trees by induction over the heap numbering; heterogeneities by C85's rewriting lemmas (ConditioningScale*.lean) |
| C128 | the search on the larger table is the search on its projection, level by level; trees by induction over the heap numbering; heterogeneities by C85's rewriting lemmas, dropping columns being a rewriting of the others; a counterexample for foc = "all"; `eval` by C81_eval on both sides and C85 on the node's rows (ColumnsMoved*.lean) |
| C129 | Shapley values as the defining sum over coalitions; a dummy player can be dropped (sum over the power set, one player at a time), hence the weights sum to 1 and the value of an additive feature is closed-form; sessions: the states of the two objects agree on the feature, by induction over the calls (ColumnsMovedShapley, ShapAdditive) |

Properties that are false of the code are kept at full strength in `properties.jsonl`; for them the negation is proved with a
witness (`…_false_…`) and the strongest true part carries the suffix `_partial`. Every claim with status `partial` in
`MANIFEST.json` is partial for that reason only: its full statement is refuted.

## 3. Trusted base

* Lean's kernel. Axioms: at most `propext`, `Classical.choice`, `Quot.sound`; the list per theorem is in `AXIOMS.md`. No axioms of
  our own, no compiled evaluation (`decide` is always run in the kernel).
* The definitions of Mathlib used in statements (lists, permutations, `Finset`-free sums, `ℝ`, `deriv`/`HasDerivAt`, interval integrals).
* The reading of the Python source into `Verif/Model` (no code was run) and of the numpy functions into `Model/Numpy.lean`.
* Exact arithmetic instead of IEEE-754 doubles: rounding, overflow, signed zeros and infinities are not modelled; input arrays contain
  no NaN (except in C112, C113) or infinity. Division by zero is `0` in a Lean field; where the code can divide by zero the model either returns NaN
  (`none`), raises, or the theorem assumes the divisor nonzero (cited at the definition).

### What a reader has to trust beyond the kernel, statement by statement

Statements mention the *modelled API* (`aleFit`, `aleEval`, `aleRun`, `Base.init`, `rhaleInit`, `pdpEvalAfter`, `shapRun`,
`searchAllSplits`, `regRunM`, `aleDraw`, ...: one definition per Python function or one list of public calls) and the
vocabulary of `Spec`. A few statements also use small model helpers where the property is about that very notion: `diffs`
(bin widths stored by the object), `prepCentering` (the documented normalisation of the `centering` argument), `fitF` (the fit
of one feature) and `evalUnnorm` in C28/C29.

## 4. Modelled and not modelled

Modelled: every function and method of `effector/` except those listed here.

Not modelled:
* drawing itself (matplotlib calls, colours, legends; the numbers passed to it *are* modelled), `tqdm`, the wording and layout of
  printed text (the figures printed are modelled);
* `shap` and `scipy` internals (parameters), the dtype system except for the truncation that C38 is about (`cast`);
* code that no public path reaches: `Tree.rename_nodes`,
  `Tree._rename_node` (regular expressions), `partitioning.rename_features`, `Node.show`, `BinBase.plot`,
  `HIndex._plot_*`, `REPID.plot`;
* negative `nof_ice`; integer `axis_limits` arrays (an integer array would truncate the 1e-8 added to limits); Feature names are columns
  except in `Model/Indices.lean`, where they are python integers (C97);
* `np.random.choice` is, except in C96 (`reseed`, `freshRun`: a new outcome per call) and C117 (`randomFit`: a new outcome per region measured in `fit`), one function of (population, size): two sub-samplings of the same sizes give the same rows. The theorems
  quantify over that function, so they hold for every outcome, but not for two different outcomes inside one history;
* the black box, its Jacobian and the SHAP explainer are deterministic when they answer, except in C117; outside `Model/Heap.lean`, `Model/Calls.lean` and `Model/RegionalCalls.lean` they are pure total functions. C109 proves what
  happens in the global classes when they raise, with any state of their own deciding when, C110 the same for the regional classes; the calls of the model inside the shap library are one call (`explain`). C105 proves, for the global PDP/ALE/RHALE
  objects, when a callable that writes into its argument or returns views of it may be taken for such a function; for ShapDP and the regional classes this is assumed;
* NaN: missing values in the data are modelled in `Model/Missing.lean` (C112), NaN predictions in `Model/NanOutput.lean` (C113) for ALE, PDP, DerPDP; elsewhere data and outputs are numbers. NaN gradients (RHALE, all three binning methods) are modelled in `Model/NanGradient.lean` (C114); NaN heterogeneities inside a regional search (and RegionalPDP, RegionalDerPDP with NaN predictions) are modelled in `Model/NanSearch.lean` (C115); missing data in a regional search (numbers as effects and heterogeneities; RegionalPDP, RegionalDerPDP) are modelled in `Model/MissingSearch.lean` (C116); NaN SHAP values, and missing data together with NaN heterogeneities or with the trees and node names, are not modelled;
* in `SearchM` (heterogeneity functions that may raise) an exception aborts the search at the first raising candidate in the order
  of evaluation of the code; partial mutations of the object before that are not tracked further than the attributes modelled.

## 5. Findings

Each is proved, as a negation or as the exact value for all inputs.

| claim | finding | place |
|---|---|---|
| C01 | right of the last limit and beyond 1e8 the accumulated effect grows again (`big_M` sentinel) | `utils.compute_accumulated_effect` |
| C07, C63 | one bin width (that of the first bin) divides the effects of all bins: ALE is wrong for unevenly spaced categories; the last limit is enlarged by 1e-8, so the last bin's quotients are off | `utils.compute_local_effects` |
| C17 | `min_points` is checked on closed intervals but instances are counted half-open: a fitted bin can have fewer points | `bin_splitting`, `utils.filter_points_in_bin` |
| C18–C20 | DP binning: a cost above 1e8 beats the infeasibility penalty: bins that overlap, miss the axis end or hold too few points | `bin_splitting.DP` |
| C22 | Fixed on a constant feature raises IndexError (or returns limits when `cat_limit=0`) instead of reporting impossibility | `bin_splitting.Fixed` |
| C23 | `min_points_per_bin=None` raises TypeError always | `bin_splitting` |
| C24 | the documented name `'dp'` is always rejected | `RHALE.fit` |
| C28 | an eval with another centring refits with the *default* binning, so it is not a shift of the fitted curve | `ALEBase.eval` |
| C31, C69 | `fit` overwrites `self.data`: with user-given limits, fitting one feature changes the results of others (PDP, DerPDP, ShapDP) | `PDPBase._fit_feature`, `SHAPDependence._fit_feature` |
| C34, C60 | empty grid raises in the loop version; `pdp_nd_non_vectorized` is not the nd PDP | `global_effect_pdp` |
| C38 | integer data truncates the requested positions | `pdp_1d_*` |
| C44, C49 | instances on a split position satisfy the displayed condition of the other node | `Tree`, `DataTransformer` |
| C45, C50 | from level 2 on, `data_effect` of a node is the data (line 437): regional RHALE at level 2 is wrong | `partitioning.py` |
| C47 | a heterogeneity above 1e8 makes too-small regions look better | `Regions` |
| C50 | without accepted splits no tree is kept and eval raises | `RegionalEffectBase.eval` |
| C52 | RHALE and ShapDP overwrite `indices` | constructors |
| C55 | `compute_local_effects` modifies the caller's limits | `utils` |
| C56 | all interaction measures raise TypeError (unknown keyword) | `interaction.py` |
| C57 | `scale_y` alone raises TypeError; with `scale_x` alone the bars are not the slopes | `ale_plot` |
| C58 | `integrate_1d_linspace` returns (n-1)/n of the integral of a constant | `utils_integrate` |
| C59 | after a scaled plot a refit leaves the old scaled tree in use; or AttributeError on `None` | `RegionalEffectBase` |
| C62 | `RegionalALE.plot` draws RHALE | `regional_effect.py` |
| C64 | the `std_err` band is the standard deviation; DerPDP adds the mean of the scaling to derivatives | `visualization.py` |
| C65 | ShapDP scaling without scatter raises; after drops the scatter shows only the first points | `global_effect_shap.py` |
| C67 | ZeroDivisionError in `show_partitioning` at zero heterogeneity | `regional_effect.py` |
| C68, C71 | SHAP heterogeneity: a constant feature in a candidate region raises and aborts the fit; the spread spline may be negative | `regional_effect_shap.py` |
| C75 | the average-output line of PDP and ShapDP uses only the instances inside the limits | `plot` methods |
| C79 | RegionalPDP splits additive models (uncentred ICE curves) | `regional_effect_pdp.py` |
| C83 | a bin with a single instance gets an interpolated variance | `utils.compute_ale_params` |
| C84 | results depend on the unit of the feature (absolute constants) | ALE, greedy, DP, finite differences |
| C86 | regional PDP evaluates nodes and root on at most 300 rows | `RegionalPDP` via `PDP(nof_instances=300)` |
| C91 | with axis limits that exclude instances, a second `fit("all")` of PDP, d-PDP or ShapDP changes what `eval` returns: each feature's fit filters `self.data` in place, so the second pass over the features starts from the rows that survived the first | `PDPBase._fit_feature`, `ShapDP._fit_feature` |
| C95 | in `ALE.fit` and `RHALE.fit` a name is not the object with the default parameters: `"greedy"` has no minimum of points per bin where `Greedy()` has 10; `"fixed"` is 20 bins without a minimum where `Fixed()` is 100 bins with at least 10 points and the documentation of ALE says 20 bins with at least 10. The regional ALE and RHALE classes search and plot with the objects (`prep_binning_method`), while `eval` of a node always uses the default name of the global class | `binning_methods.find_limits`, `ALE._fit_feature`, `prep_binning_method` |
| C96 | `eval` of a regional PDP or d-PDP node with more than 300 instances (ShapDP: more than 100) draws a new sub-sample at every call: two equal calls return different values, and a list of positions at once differs from one by one; `RegionalPDP.fit(nof_instances=n)` draws a new sub-sample for every candidate region, so repeating a fit can change the tree | `RegionalEffectBase.eval` → `PDP.__init__`/`ShapDP.__init__` defaults, `RegionalPDPBase._create_heterogeneity_function` |
| C97 | `is_fitted[-1]` and `is_fitted[D-1]` are one entry, `feature_effect["feature_-1"]` and `feature_effect["feature_1"]` are two: after `fit(-1)`, `eval(D-1)` raises `KeyError` instead of fitting | `GlobalEffectBase.refit`, `ALEBase.eval`, `PDPBase.eval` |
| C97 | `candidate_conditioning_features="all"` compares columns with the integer given: a feature fitted under a negative name is a candidate for splitting itself, and a feature without any interaction is split | `Regions.__init__` (partitioning.py:47-51) |
| C100 | `min_points_per_bin` of `prep_dale_fit_params` is never checked: the assertion tests the type of `max_nof_bins` a second time | helpers.py:69-70 |
| C101 | `expecation_2D` integrates the other two features over the limits of features 1 and 2 whatever the feature of interest: right only for feature 0 | utils_integrate.py:92-100 |
| C102 | ALE moves categorical features half a gap beyond the smallest and largest category (a binary 0/1 feature is evaluated at x = -0.5 and 1.5), and evaluates the model 1e-8 above the upper limit; RHALE without gradient divides a jump just above an instance by 1e-8 | bin_splitting.py:119-121, utils.py:53, 60-61 |
| C103 | in a small enough output unit, dynamic programming ignores min_points_per_bin and makes other bins (the penalty 1e8 is an absolute number) | RHALE with DP |
| C104 | with heterogeneities above about 1e8/(N + 2^depth) the penalty 1e8 for small subregions is an improvement, and inadmissible splits are made; and the default heter_small_enough = 0.1 is an absolute number, so that the unit of the output decides whether an interaction is found | RegionalRHALE and the other regional classes |
| C105 | (1) d-PDP without `model_jac`, `use_vectorized=False`: one array serves both calls of the model, so for a model that returns a view of its argument (`lambda x: x[:, 0]`) the derivative is 0 instead of 1; (2) without `avg_output` the constructor calls the model on `self.data`: a model that writes into its argument changes the data every later effect is computed from; (3) `compute_jacobian_numerically` calls the model on the data set itself, in regional RHALE on the caller's own array | DerPDP.eval, constructors, RHALE, RegionalRHALE |
| C106 | `axis_limits` is kept by reference: a caller that re-uses the array between calls changes the limits of the object (fewer instances used, or a curve centred at a start that is no longer the start) | all global and regional classes |
| C107 | RHALE with greedy bins (the default) is not continuous in the effects: effects that differ by 1/1000 give different bins and curves that differ by more than 1/3 | `Greedy.find` |
| C108 | `ShapDP.fit('all')` computes the SHAP values of all features D times; the numerical Jacobian evaluates the model on the unmoved rows D times; a `DerPDP` with `model_jac` still calls the model in its constructor | `SHAPDependence._fit_feature`, `utils.compute_jacobian_numerically`, `GlobalEffectBase.__init__` |
| C109 | if the model raises during `fit` or `eval` of one feature, the instances outside its (user-given) limits are already thrown away: the results of other features change, and trying the `fit` again gives something else | `PDPBase._fit_feature`, `SHAPDependence._fit_feature` |
| C110 | if the model (or its gradient) raises once during `fit` of RegionalALE, RegionalRHALE, RegionalPDP or RegionalDerPDP, `fit` usually returns normally, with other regions, no regions, or a region whose heterogeneity is reported as 1e8 (a bare `except:`; it catches `KeyboardInterrupt` too) | `_create_heterogeneity_function` |
| C112 | one NaN in one column, axis limits not given: `PDP.fit()` / `DerPDP.fit()` returns normally but has emptied `self.data`; from then on `eval` of every feature returns NaN (or raises). ALE and RHALE refuse the column with an `IndexError`/`AssertionError` and the other features stay correct. A regional split on a continuous column with a NaN has only NaN positions and two empty subregions | `helpers.axis_limits_from_data`, `PDPBase._fit_feature` |
| C113 | one NaN prediction: `ALE` drops every instance of that bin (the bin's mean is NaN, which `fill_nans` takes for "empty bin") and reports the interpolation of the neighbouring bins' effects as if it were the effect there; no warning, no NaN in the output. PDP, DerPDP and ICE report NaN | `utils.fill_nans`, called from `utils.compute_ale_params` |
| C114 | one NaN gradient: RHALE with fixed or greedy bins fills the bin in from its neighbours, silently; with `DynamicProgramming` the matrix of costs is all NaN from its second column on, `np.argmin` then picks the first NaN and back-tracking yields limits such as `[x_0, x_i, x_0, x_K]`, so the user sees numpy's "bins must be monotonically increasing or decreasing" | `utils.fill_nans`, `DP.find`, `DP._argmatrix_to_limits` |
| C115 | NaN anywhere in the candidate matrix of a level: `np.argmax` chooses that candidate, its drop is NaN, the comparison `> thres` is false and the level and everything below are discarded without a warning; one instance with one NaN prediction makes RegionalPDP report no subregion (`C115_one_instance`, `C115_false_pdp`) | `Regions.single_level_splits`, `choose_important_splits` |
| C116 | One missing entry in a continuous conditioning feature: `find_positions_cont` returns NaN positions, every candidate split of it puts every instance nowhere (two empty parts, heterogeneity `BIG_M`), so the feature is never used and nothing is reported about it (`C116_ignored`, `C116_nothing_left`, `C116_finding`); the instances are not lost only because such a split can never be important (`C116_no_instance_lost`) | `Regions.find_positions_cont`, `split_dataset` |
| C117 | `RegionalPDP.fit(nof_instances=n)`: the heterogeneities in the tree come from new sub-samples, drawn after the split was chosen; a split that was kept for its drop can be shown with subregions more heterogeneous, on average, than the region that was split (`C117_shown_is_measured_again`) | `Regions.single_level_splits` |
| C118 | `PDP(..., nof_instances=n)`, and every regional `eval` of more than 300 instances: the heterogeneity is biased downwards, its square by the factor (n-1)/n * N/(N-1) (`C118_given_limits`, `C118_regional`); a sub-sampled ALE is biased when a draw can leave a bin empty (`C118_false_ale`) | `PDPBase.eval`, `ALE._fit_feature` |

Observed while reading, not stated as properties: `prep_binning_method("fixed")` and `find_limits("fixed")` use different defaults;
the docstring of `_is_categorical` says "less than" where the code uses `<=`; a regional `eval` refits the node with default
binning, so it can raise at small nodes although the regional fit succeeded; `_rename_node` replaces every occurrence of the number's text;
`HIndex._plot_interaction_matrix` overwrites the diagonal.

## 6. Seeded errors

`seeded/LOG.jsonl` has one line per edit of the model: the definition, the edit, the claims it should break, the theorems that no
longer check, and the theorems that were tightened because they survived. Edits that survive are commented (unobservable change,
or a claim that does not depend on the edited code).

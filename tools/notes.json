{
 "C01": "Every bin count after fill is the old count plus the weights of the events in that bin; event-in-bin is specified by intervals (Spec.InBin), including the right edge and scipy's rounding tolerance there.",
 "C05": "The full property is false of the code (C05_refuted: weights given as a tuple update the counts before `weights ** 2` raises). Proved for every other rejected fill, 1-d and 2-d. C05_tuple_partial, C05_tuple2_partial: the exact state after such a call (contents increased, errors and is_empty untouched).",
 "C11": "False as documented (C11_refuted): corr2cov multiplies by its second argument, so it needs standard deviations, not variances. Proved: the round trip with standard deviations. C11_iff: the documented call gives the matrix back exactly if all variances are 1.",
 "C15": "False in general (C15_refuted). C15_swap_iff characterises exactly when up/down may be exchanged.",
 "C18": "False for empty data bins (C18_refuted: NaN). Proved for positive data and expectations. C18_finite_iff: the statistic is finite exactly if data and expectation have the same non-zero sign in every bin.",
 "C22": "False of the code (C22_refuted: for every empty histogram all values and errors are NaN). Proved: yield and nuisance parameters are zero.",
 "C25": "False if the matrix inversion fails (C25_refuted: cov, cov_mats and corr are already replaced). Proved for every other rejection, in every template state. C25_exact_partial: when the call raises and everything it leaves behind.",
 "C28": "False after reset() (C28_refuted: reset reads the live histogram). C28_snapshot_partial: true for every history without reset(); C28_all_but_yield_partial: for every history with resets everything except the yield is a snapshot, and right after reset() the yield is the current content of the histogram.",
 "C29": "False for non-uniform bins (C29_refuted). Proved for equal-width binnings of any size and range, in every template state. C29_iff: the claim holds for all samples exactly if the bins are equal-width bins.",
 "C30": "False of the code: every call raises TypeError (C30_refuted). Proved: the failing call changes nothing.",
 "C32": "False of the code (C32_refuted: only number of bins and range are compared). Proved for every reachable model: same shape, number of edges, first and last edge.",
 "C38": "False for ranges given as list (C38_refuted). Proved for every reachable model: accepted if and only if the range was given as tuple(s).",
 "C40": "False for channels extended after they were evaluated (C40_refuted: stale lru_cache). Proved for every history in which no channel is extended after its own first evaluation; everything else may be interleaved.",
 "C41": "False for several channels or another template order (C41_refuted, C41_refuted_channels). Proved for one channel in process order. C41_alone_partial: in channels with at least two bins the call works exactly if no other channel has parameters and every process is in the channel; ValueError otherwise.",
 "C46": "False (C46_refuted: earlier keyword arguments stay applied). Proved: exactly the arguments before the offending one are applied; single-argument calls are all-or-nothing.",
 "C49": "False in general (C49_refuted). Proved: the exact value of x0 after an update, and the round trip holds if and only if the efficiencies of every process add up to one.",
 "C50": "get_yield after set_yield(p, v) is v times the sum of the efficiencies (C50_yield_partial); equal to v only if these sum to one (C50_refuted otherwise).",
 "C52": "False when both channel and process names contain underscores (C52_refuted). C52_iff says exactly when the names are unique: the joined channel/process names of distinct (channel, process) pairs differ. Proved for every reachable model in which no channel name, or no process name, contains an underscore (C52_unique_partial).",
 "C53": "False when a process is constrained twice (C53_refuted: the term is counted twice). Proved: the exact value for any list of calls, and once each without repetition.",
 "C60": "False with two or more fixed parameters (C60_refuted: late binding of the loop variable). Proved for the last fixed parameter and for a single one. C60_iff: true exactly if at most one parameter is fixed.",
 "C65": "False when a parameter is addressed both by name and by index (C65_refuted). Proved for parameters always addressed by the same identifier. C65_exact_partial: the bounds used are always the last ones of the identifier whose first use is the most recent.",
 "C66": "False: the flag set by fix_nui_params() is never read (C66_refuted, for every model and fitter). Proved for the argument do_fit(fix_nui_params=True).",
 "C69": "False: the scan releases all parameters and drops bounds (C69_refuted). C69_iff_partial, C69_scipy_partial: it holds exactly for fitters without settings, for both minimisers.",
 "C71": "NaN is possible when the signal yield is fixed (C71_refuted). Proved under the documented use: yield not fixed and its bounds contain zero. C71_scipy_partial is the same for the scipy minimiser.",
 "C72": "False: the tested yield is left at zero (C72_refuted). C72_partial gives the complete effect of the call for a process of the model, C72_unknown_partial for any other name.",
 "C78": "False for empty data bins and negative expectations (-inf instead of the expectation / NaN). Proved for data without empty bins.",
 "C79": "False after a fill with tuple weights (C79_refuted: the cache is cleared only at the end). Proved for all other histories.",
 "C89": "False in general: from_binned_data and the params setter keep a reference to the caller's array, and fill and the setters write into it (C89_refuted, C89_shared_forever). Proved: the program behaves as if arrays were copied as long as every float array is handed over once and not written to afterwards (C89_handed_over_partial); the exact set of objects a fill or yield assignment changes (C89_fill_frame, C89_yield_frame); arrays never handed over are never written (C89_user_arrays).",
 "C90": "False if templates of a channel have different inner bin edges (C90_edges_refuted: contents appear in wrong bins) and for post_fit_uncertainties=scale in models with several channels (C90_scale_refuted: ValueError); any other mode raises UnboundLocalError (C90_unknown_mode). Everything else of the statement is proved: the data handed to matplotlib, and what is seen if the edges agree (C90_seen_partial).",
 "C82": "False: infinite recursion (C82_refuted).",
 "C92": "False if one template object was put into the stack under two ids (C92_update_refuted, C92_shared): the parameters do not read back. Proved for stacks of distinct objects in every reachable state; values, errors, Asimov and toy data, reset without restriction.",
 "C93": "False after add_covariance_matrix on a template of the stack (C93_stale_refuted): the block matrix is computed once. Proved for every later history without that and without templates put into the stack (C93_current_partial); C93_value gives the exact value in all of these cases. C93_grown: after templates were put into the stack every call of the documented length raises.",
 "C94": "Unique names fail if two ids stand for templates of the same name (C94_refuted). Proved: alignment with x0, uniqueness exactly if template names differ (C94_unique), and unique names in every stack filled by create_template (C94_created_partial).",
 "C96": "False for Template.plot_on, which never returns (C96_template_refuted: method minus array). Proved for stacks in every reachable state; for single templates what is drawn before the exception.",
 "C97": "False for empty bins, which show NaN (C97_empty_refuted). C97_exact_partial gives the value in every case for every history; bin_entries proved in full.",
 "C105": "False (C105_refuted): a bin without data contributes its expectation linearly, also if it is negative, so yields that drive the expectation of empty bins to minus infinity while keeping bins with data positive make the likelihood arbitrarily negative (C105_unbounded). Bounded below by 0 wherever the empty bins have non-negative expectations (C105_nonneg_partial). Exactly (C105_iff): with data in each channel, positive contents, non-zero relative errors and positive efficiencies the likelihood is bounded below iff every bin has data. C105_not_ninf: with non-negative efficiencies and bin fractions it is never minus infinity unless a yield is.",
 "C107": "The integral (scipy.integrate.quad over the chi2 density) is a hypothesis of the theorems: it is taken to be exact. Proved: values in (0,1], 1 exactly for agreement, strictly decreasing in the statistic.",
 "C109": "Refuted for fix_nui_params=True: profile (fitter.py:206-287) fixes the nuisance parameters in the nominal fit but not at the scan points, so profile values can be negative (C109_refuted). Proved for fix_nui_params=False with iminuit (C109_nonneg_partial) and with scipy (C109_scipy_partial) and a minimiser that returns true minima.",
 "C110": "Refuted when a fixed yield belongs to a process whose efficiencies do not add up to 1: update_parameters stores yield times efficiency in each template, x0 sums these over the channels, so the second fit fixes the yield at a different value and finds another minimum (C110_refuted). C110_state gives the state after the first fit exactly; C110_refit_partial proves the property for iminuit when every fixed yield has efficiencies that add up to 1 (any efficiencies for free yields).",
 "C113": "Refuted for channels with an empty data bin: the nuisance parameter of that bin can make its content negative and the sum of the template small, which inflates the expectation of the bins with data without changing the total, so that the likelihood falls below every bound (C113_unbounded, for every such model and with all other parameters held fixed; C113_refuted: concrete model with the yield fixed; C113_no_minimum: a fit with a minimiser that finds true minima then returns no finite minimum). Proved: a joint minimum exists within limits on the nuisance parameters that keep the template contents non-negative (C113_exists_partial).",
 "C114": "False (C114_refuted): lru_cache cannot hash numpy arrays, so every documented call raises TypeError (C114_ndarray); with a tuple, a call after the function changed returns the old matrix. C114_origin: what any call after any history returns; C114_current_partial: correct for tuples and functions that do not change.",
 "C119": "C119_exact (iminuit), C119_scipy, C119_asimov (both minimizers, from the model and its Asimov data). Hypotheses: optimiser returns true constrained minima, no template object used twice (set_yield needs it, C50), identifiable yields.",
 "C120": "C120_iminuit and C120_scipy describe every result of do_fit; C120_fixing and C120_minimizers are consequences. Bounds of one parameter always registered under the same identifier (else C65_refuted); scipy with at most one fixed parameter (else C60_refuted).",
 "C122": "False (C122_refuted: called with the yields but without nuisance parameters, update_parameters raises after it has overwritten the yield of the first template, C122_yields_only; the start values of the next fit change). Proved: exactly which vectors are accepted, surplus ignored, nothing but template parameters can change (C122_touches), vectors too short for a used yield leave everything unchanged (C122_short_partial).",
 "C131": "C131_curvature, C131_yields, C131_asimov, C131_no_flat: exact formula; C131_hesse_exists/unique/posdef: the matrix; C131_fit: the covariance do_fit returns. Exact minimization (TrueMinScipy) and differentiation (ExactHesse) are hypotheses on the external optimiser.",
 "C132": "False (C132_refuted: fits with the yield fixed, or with fix_nui_params=True, report positive errors for the fixed parameters). C132_same_partial: the errors do not depend on what is fixed; C132_overestimate_partial: never underestimated, strictly overestimated for correlated parameters.",
 "C134": "False (C134_refuted: one bin, 11 events, expectation 11 - 2^-48, double precision). Proved: absolute error bound (C134_cowan_partial), so the statistic is never below minus that bound.",
 "C137": "C137_events (one fit), C137_study (rows of a toy study), C137_unbiased (law, mean, variance), C137_yield (one process). The true minimizer and the Poisson law of the generator are hypotheses on the externals; ToyStat5/6 show cases that meet them, with every fit returning.",
 "C138": "False (C138_refuted: one process expecting 1/2 event; every row of every study reports at least 1, and studies that repeat the empty data sets return). C138_no_events, C138_attempt, C138_rows_partial: every row has at least one event for every process.",
 "C139": "C139_hesse (second derivatives at a stationary point), C139_total (the covariance of do_fit), C139_yield (one process), C139_toys. The exact minimizer and differentiation are hypotheses on the externals (as in C131); the example fits the two-channel model.",
 "C140": "C140_fit (one data set), C140_toys (averages, tail probabilities, number of events). That the fits return finite values and non-negative expectations is a hypothesis (yields can be bounded from below; C105 shows what happens otherwise); the example proves it for the two-channel model.",
 "C141": "Refuted (C141_counts_live, C141_params_live, C141_writes for all programs; C141_refuted is one program). The partials: copies (C141_copy_partial), arrays read before reset (C141_reset_partial). The references are those of Model/Alias.lean; template.cov_mat, which is changed in place too, is a value in the model.",
 "C142": "C142_bins, C142_yields (explicit constants), C142_resolves (linearly independent shapes give such a constant), C142_luminosity (yields L times as large). As in C140 the fits return by hypothesis (finite value, non-negative expectations); the example proves this for all toy data sets of the two-channel model.",
 "C143": "C143_exact and C143_total (number of events), C143_yield_exact and C143_yield (one process). Lemmas/PoissonClt: the standardised Poisson law converges weakly to the normal law (characteristic functions, Levy continuity), hence the coverage of N +- t sqrt(N). Random generator as in C137; fits that fail are allowed with probability eta. In the example only the toys that agree with the expectation are shown to be fitted.",
 "C144": "C144_refuted: one bin, eight events; every toy with events has a pull, their mean is negative (C144_biased: so it is in every model with M >= 4). C144_study, C144_pull: the exact pull (N - M) / sqrt N. C144_mean_partial, C144_limit_partial: mean at most 2 / sqrt M, distribution function converges to the normal one. Toys without events fail (C138) and are counted as pull 0. A Minuit whose HESSE errors are exact is a hypothesis (ExactErrors).",
 "C145": "C145_fixing: any two iminuit fits ending at the same parameters with a positive definite matrix of second derivatives there, the second holding more fixed. C145_asimov: fits to Asimov data, where both hypotheses are proved. C145_constraint, C145_constraint_asimov: one more Gaussian constraint. C145_prior: nuisance errors at most sqrt of the diagonal entry of the correlation matrix (one). Exactness of the HESSE errors is a hypothesis (ExactErrors); for scipy C132 shows the errors ignore what is fixed.",
 "C146": "C146_program: update_parameters then generate_asimov_dataset then do_fit, in two sessions; C146_asimov and C146_scaling (any data, one L times the other) for two given models. The proof writes the matrix of second derivatives as data part plus prior part and compares the diagonals of the inverses. Exactness of the HESSE errors is a hypothesis (ExactErrors). Example: two channels, four nuisance parameters, L = 4: the yield error doubles exactly when the nuisance parameters are held fixed.",
 "C147": "C147_combination: the channels of the smaller model are the first ones of the larger; data of both are the exact expectations of the same yields (Asimov); no bounds. closure_from extends C106 to start points away from the truth. Exactness of the HESSE errors is a hypothesis (ExactErrors). Example: the first channel of a two-channel model, fitted from a wrong yield, and the two-channel model. C147_weighted: without constraints the inverse squared errors of the separate fits of the first and of the further channels add up to at most that of the combined fit (all parameters free or all nuisance parameters fixed).",
 "C148": "C148_merging: both data sets are the exact expectations of the same yields (Asimov), nuisance parameters held fixed at zero, no bounds; the second part (same composition) gives equality. Merged describes the coarse model through the contents of its templates; its edges play no role for the fit. Exactness of the HESSE errors is a hypothesis (ExactErrors). Example: a channel with contents 2 and 4 and the same with the two bins merged.",
 "C149": "C149_program_partial: any constructors and any fills, no finite event beyond the last edge; C149_program2_partial: the same for two dimensions; C149_projection_partial, C149_yprojection_partial: merging commutes with the projections; C149_template_partial: templates made from a histogram and its merged version; C149_merge_partial: one fill of any two histograms of which one holds the merged contents. C149_refuted: an event just beyond the last edge, within scipy's rounding tolerance, which depends on the smallest bin width, is counted in the coarse histogram only (edges 0, 0.1, 1 against 0, 1; event 1 + 3e-7)."
}

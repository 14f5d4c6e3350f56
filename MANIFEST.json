{
 "claims": [
  {
   "property": "C01",
   "status": "proved",
   "theorems": [
    "TF.Props.C01_fill_counts",
    "TF.Props.C01_bins_disjoint",
    "TF.Props.C01_right_edge",
    "TF.Props.C01_right_edge_tolerance"
   ],
   "note": "Every bin count after fill is the old count plus the weights of the events in that bin; event-in-bin is specified by intervals (Spec.InBin), including the right edge and scipy's rounding tolerance there."
  },
  {
   "property": "C02",
   "status": "proved",
   "theorems": [
    "TF.Props.C02_fill_errors",
    "TF.Props.C02_unweighted",
    "TF.Props.C02_unweighted_any"
   ],
   "note": "Squared bin errors accumulate the squared weights"
  },
  {
   "property": "C03",
   "status": "proved",
   "theorems": [
    "TF.Props.C03_fill_append",
    "TF.Props.C03_fill_perm",
    "TF.Props.C03_fill2_append",
    "TF.Props.C03_fill2_perm",
    "TF.Props.C03_fill2_state"
   ],
   "note": "Filling is additive and order independent"
  },
  {
   "property": "C04",
   "status": "proved",
   "theorems": [
    "TF.Props.C04_total_content",
    "TF.Props.C04_total_any",
    "TF.Props.C04_total2"
   ],
   "note": "Total content equals the accepted weight"
  },
  {
   "property": "C05",
   "status": "partial",
   "theorems": [
    "TF.Props.C05_tuple_partial",
    "TF.Props.C05_tuple2_partial",
    "TF.Props.C05_refuted",
    "TF.Props.C05_rejected_fill_partial",
    "TF.Props.C05_rejected_fill2_partial"
   ],
   "note": "The full property is false of the code (C05_refuted: weights given as a tuple update the counts before `weights ** 2` raises). Proved for every other rejected fill, 1-d and 2-d. C05_tuple_partial, C05_tuple2_partial: the exact state after such a call (contents increased, errors and is_empty untouched)."
  },
  {
   "property": "C06",
   "status": "proved",
   "theorems": [
    "TF.Props.C06_hist1d",
    "TF.Props.C06_hist2d",
    "TF.Props.C06_equal_width",
    "TF.Props.C06_negative"
   ],
   "note": "Equal-width binning"
  },
  {
   "property": "C07",
   "status": "proved",
   "theorems": [
    "TF.Props.C07_roundtrip",
    "TF.Props.C07_default_errors",
    "TF.Props.C07_roundtrip2",
    "TF.Props.C07_default_errors2"
   ],
   "note": "from_binned_data round trip"
  },
  {
   "property": "C08",
   "status": "proved",
   "theorems": [
    "TF.Props.C08_fill2"
   ],
   "note": "2-D fill puts every event in its cell"
  },
  {
   "property": "C09",
   "status": "proved",
   "theorems": [
    "TF.Props.C09_xprojection",
    "TF.Props.C09_yprojection",
    "TF.Props.C09_projection_commutes",
    "TF.Props.C09_yprojection_commutes"
   ],
   "note": "Projections preserve content"
  },
  {
   "property": "C10",
   "status": "proved",
   "theorems": [
    "TF.Props.C10_any",
    "TF.Props.C10_cov2corr",
    "TF.Props.C10_cov2corr_positive"
   ],
   "note": "cov2corr yields a correlation matrix"
  },
  {
   "property": "C11",
   "status": "partial",
   "theorems": [
    "TF.Props.C11_iff",
    "TF.Props.C11_refuted",
    "TF.Props.C11_roundtrip_partial"
   ],
   "note": "False as documented (C11_refuted): corr2cov multiplies by its second argument, so it needs standard deviations, not variances. Proved: the round trip with standard deviations. C11_iff: the documented call gives the matrix back exactly if all variances are 1."
  },
  {
   "property": "C12",
   "status": "proved",
   "theorems": [
    "TF.Props.C12_name",
    "TF.Props.C12_int",
    "TF.Props.C12_errors"
   ],
   "note": "Parameter identifiers resolve uniquely"
  },
  {
   "property": "C13",
   "status": "proved",
   "theorems": [
    "TF.Props.C13_infinite",
    "TF.Props.C13_value",
    "TF.Props.C13_small",
    "TF.Props.C13_zero",
    "TF.Props.C13_negative",
    "TF.Props.C13_special"
   ],
   "note": "xlogyx computes x*log(y/x) with defined limits"
  },
  {
   "property": "C14",
   "status": "proved",
   "theorems": [
    "TF.Props.C14_systematic_cov",
    "TF.Props.C14_mismatch"
   ],
   "note": "Systematic covariance is a valid covariance"
  },
  {
   "property": "C15",
   "status": "partial",
   "theorems": [
    "TF.Props.C15_swap_iff",
    "TF.Props.C15_refuted",
    "TF.Props.C15_swap_partial"
   ],
   "note": "False in general (C15_refuted). C15_swap_iff characterises exactly when up/down may be exchanged."
  },
  {
   "property": "C16",
   "status": "proved",
   "theorems": [
    "TF.Props.C16_prefix",
    "TF.Props.C16_complete",
    "TF.Props.C16_pieces"
   ],
   "note": "array_split_into partitions its input"
  },
  {
   "property": "C17",
   "status": "proved",
   "theorems": [
    "TF.Props.C17_pearson",
    "TF.Props.C17_default"
   ],
   "note": "Pearson chi2 is a distance"
  },
  {
   "property": "C18",
   "status": "partial",
   "theorems": [
    "TF.Props.C18_finite_iff",
    "TF.Props.C18_cowan_partial",
    "TF.Props.C18_refuted"
   ],
   "note": "False for empty data bins (C18_refuted: NaN). Proved for positive data and expectations. C18_finite_iff: the statistic is finite exactly if data and expectation have the same non-zero sign in every bin."
  },
  {
   "property": "C19",
   "status": "proved",
   "theorems": [
    "TF.Props.C19_fractions",
    "TF.Props.C19_mismatch"
   ],
   "note": "Template fractions are normalised"
  },
  {
   "property": "C20",
   "status": "proved",
   "theorems": [
    "TF.Props.C20_values_sum"
   ],
   "note": "Template values add up to the yield"
  },
  {
   "property": "C21",
   "status": "proved",
   "theorems": [
    "TF.Props.C21_fresh"
   ],
   "note": "A fresh template reproduces its histogram"
  },
  {
   "property": "C22",
   "status": "partial",
   "theorems": [
    "TF.Props.C22_refuted",
    "TF.Props.C22_params_partial"
   ],
   "note": "False of the code (C22_refuted: for every empty histogram all values and errors are NaN). Proved: yield and nuisance parameters are zero."
  },
  {
   "property": "C23",
   "status": "proved",
   "theorems": [
    "TF.Props.C23_cov_is_sum",
    "TF.Props.C23_relative_errors"
   ],
   "note": "Covariance bookkeeping"
  },
  {
   "property": "C24",
   "status": "proved",
   "theorems": [
    "TF.Props.C24_correlation_invertible",
    "TF.Props.C24_psd_accepted"
   ],
   "note": "Correlation matrices stay invertible"
  },
  {
   "property": "C25",
   "status": "partial",
   "theorems": [
    "TF.Props.C25_exact_partial",
    "TF.Props.C25_refuted",
    "TF.Props.C25_rejected_unchanged_partial"
   ],
   "note": "False if the matrix inversion fails (C25_refuted: cov, cov_mats and corr are already replaced). Proved for every other rejection, in every template state. C25_exact_partial: when the call raises and everything it leaves behind."
  },
  {
   "property": "C26",
   "status": "proved",
   "theorems": [
    "TF.Props.C26_setters"
   ],
   "note": "Parameter setters validate and isolate"
  },
  {
   "property": "C27",
   "status": "proved",
   "theorems": [
    "TF.Props.C27_history",
    "TF.Props.C27_reset",
    "TF.Props.C27_reset_values",
    "TF.Props.C27_channel_reset",
    "TF.Props.C27_model_reset"
   ],
   "note": "reset restores the initial parameters"
  },
  {
   "property": "C28",
   "status": "partial",
   "theorems": [
    "TF.Props.C28_refuted",
    "TF.Props.C28_snapshot_partial",
    "TF.Props.C28_all_but_yield_partial"
   ],
   "note": "False after reset() (C28_refuted: reset reads the live histogram). C28_snapshot_partial: true for every history without reset(); C28_all_but_yield_partial: for every history with resets everything except the yield is a snapshot, and right after reset() the yield is the current content of the histogram."
  },
  {
   "property": "C29",
   "status": "partial",
   "theorems": [
    "TF.Props.C29_iff",
    "TF.Props.C29_uniform_partial",
    "TF.Props.C29_refuted"
   ],
   "note": "False for non-uniform bins (C29_refuted). Proved for equal-width binnings of any size and range, in every template state. C29_iff: the claim holds for all samples exactly if the bins are equal-width bins."
  },
  {
   "property": "C30",
   "status": "partial",
   "theorems": [
    "TF.Props.C30_refuted",
    "TF.Props.C30_unchanged_partial"
   ],
   "note": "False of the code: every call raises TypeError (C30_refuted). Proved: the failing call changes nothing."
  },
  {
   "property": "C31",
   "status": "proved",
   "theorems": [
    "TF.Props.C31_accepts",
    "TF.Props.C31_rejects",
    "TF.Props.C31_reachable",
    "TF.Props.C31_defined"
   ],
   "note": "Channels accept exactly compatible templates"
  },
  {
   "property": "C32",
   "status": "partial",
   "theorems": [
    "TF.Props.C32_outline_partial",
    "TF.Props.C32_refuted"
   ],
   "note": "False of the code (C32_refuted: only number of bins and range are compared). Proved for every reachable model: same shape, number of edges, first and last edge."
  },
  {
   "property": "C33",
   "status": "proved",
   "theorems": [
    "TF.Props.C33_bookkeeping"
   ],
   "note": "Channel bookkeeping is consistent"
  },
  {
   "property": "C34",
   "status": "proved",
   "theorems": [
    "TF.Props.C34_expected"
   ],
   "note": "Expected events formula"
  },
  {
   "property": "C35",
   "status": "proved",
   "theorems": [
    "TF.Props.C35_gauss"
   ],
   "note": "Gauss term is the sum of template penalties"
  },
  {
   "property": "C36",
   "status": "proved",
   "theorems": [
    "TF.Props.C36_nll"
   ],
   "note": "Channel likelihood formula and bound"
  },
  {
   "property": "C37",
   "status": "proved",
   "theorems": [
    "TF.Props.C37_impossible"
   ],
   "note": "Impossible data are infinitely penalised"
  },
  {
   "property": "C38",
   "status": "partial",
   "theorems": [
    "TF.Props.C38_accepted_partial",
    "TF.Props.C38_refuted"
   ],
   "note": "False for ranges given as list (C38_refuted). Proved for every reachable model: accepted if and only if the range was given as tuple(s)."
  },
  {
   "property": "C39",
   "status": "proved",
   "theorems": [
    "TF.Props.C39_rounding",
    "TF.Props.C39_asimov",
    "TF.Props.C39_pure"
   ],
   "note": "Asimov data equal the model"
  },
  {
   "property": "C40",
   "status": "partial",
   "theorems": [
    "TF.Props.C40_history_independent_partial",
    "TF.Props.C40_refuted"
   ],
   "note": "False for channels extended after they were evaluated (C40_refuted: stale lru_cache). Proved for every history in which no channel is extended after its own first evaluation; everything else may be interleaved."
  },
  {
   "property": "C41",
   "status": "partial",
   "theorems": [
    "TF.Props.C41_alone_partial",
    "TF.Props.C41_single_channel_partial",
    "TF.Props.C41_refuted",
    "TF.Props.C41_refuted_channels"
   ],
   "note": "False for several channels or another template order (C41_refuted, C41_refuted_channels). Proved for one channel in process order. C41_alone_partial: in channels with at least two bins the call works exactly if no other channel has parameters and every process is in the channel; ValueError otherwise."
  },
  {
   "property": "C42",
   "status": "proved",
   "theorems": [
    "TF.Props.C42_propagated"
   ],
   "note": "Propagated covariance is a covariance"
  },
  {
   "property": "C43",
   "status": "proved",
   "theorems": [
    "TF.Props.C43_processes"
   ],
   "note": "Processes are defined once"
  },
  {
   "property": "C44",
   "status": "proved",
   "theorems": [
    "TF.Props.C44_defined_only"
   ],
   "note": "Templates only for defined channels and processes"
  },
  {
   "property": "C45",
   "status": "proved",
   "theorems": [
    "TF.Props.C45_redefine"
   ],
   "note": "Redefining a channel starts it afresh"
  },
  {
   "property": "C46",
   "status": "partial",
   "theorems": [
    "TF.Props.C46_prefix_partial",
    "TF.Props.C46_single_partial",
    "TF.Props.C46_success_partial",
    "TF.Props.C46_refuted"
   ],
   "note": "False (C46_refuted: earlier keyword arguments stay applied). Proved: exactly the arguments before the offending one are applied; single-argument calls are all-or-nothing."
  },
  {
   "property": "C47",
   "status": "proved",
   "theorems": [
    "TF.Props.C47_partition"
   ],
   "note": "Parameter vector partition"
  },
  {
   "property": "C48",
   "status": "proved",
   "theorems": [
    "TF.Props.C48_update",
    "TF.Props.C48_channel"
   ],
   "note": "update_parameters writes what it was given"
  },
  {
   "property": "C49",
   "status": "partial",
   "theorems": [
    "TF.Props.C49_formula_partial",
    "TF.Props.C49_roundtrip_iff_partial",
    "TF.Props.C49_refuted"
   ],
   "note": "False in general (C49_refuted). Proved: the exact value of x0 after an update, and the round trip holds if and only if the efficiencies of every process add up to one."
  },
  {
   "property": "C50",
   "status": "partial",
   "theorems": [
    "TF.Props.C50_yield_partial",
    "TF.Props.C50_refuted"
   ],
   "note": "get_yield after set_yield(p, v) is v times the sum of the efficiencies (C50_yield_partial); equal to v only if these sum to one (C50_refuted otherwise)."
  },
  {
   "property": "C51",
   "status": "proved",
   "theorems": [
    "TF.Props.C51_aligned",
    "TF.Props.C51_yields"
   ],
   "note": "x0 and param_names are aligned with the parameter vector"
  },
  {
   "property": "C52",
   "status": "partial",
   "theorems": [
    "TF.Props.C52_iff",
    "TF.Props.C52_unique_partial",
    "TF.Props.C52_refuted"
   ],
   "note": "False when both channel and process names contain underscores (C52_refuted). C52_iff says exactly when the names are unique: the joined channel/process names of distinct (channel, process) pairs differ. Proved for every reachable model in which no channel name, or no process name, contains an underscore (C52_unique_partial)."
  },
  {
   "property": "C53",
   "status": "partial",
   "theorems": [
    "TF.Props.C53_formula_partial",
    "TF.Props.C53_once_partial",
    "TF.Props.C53_undefined",
    "TF.Props.C53_accepted",
    "TF.Props.C53_refuted"
   ],
   "note": "False when a process is constrained twice (C53_refuted: the term is counted twice). Proved: the exact value for any list of calls, and once each without repetition."
  },
  {
   "property": "C54",
   "status": "proved",
   "theorems": [
    "TF.Props.C54_additive",
    "TF.Props.C54_closed",
    "TF.Props.C54_reachable"
   ],
   "note": "Total likelihood is additive over channels"
  },
  {
   "property": "C55",
   "status": "proved",
   "theorems": [
    "TF.Props.C55_closure"
   ],
   "note": "Asimov closure"
  },
  {
   "property": "C56",
   "status": "proved",
   "theorems": [
    "TF.Props.C56_nll",
    "TF.Props.C56_observations",
    "TF.Props.C56_repeat"
   ],
   "note": "Evaluating the likelihood changes nothing observable"
  },
  {
   "property": "C57",
   "status": "proved",
   "theorems": [
    "TF.Props.C57_lengths",
    "TF.Props.C57_assign",
    "TF.Props.C57_matrices",
    "TF.Props.C57_lookup"
   ],
   "note": "Parameters container consistency"
  },
  {
   "property": "C58",
   "status": "proved",
   "theorems": [
    "TF.Props.C58_iminuit",
    "TF.Props.C58_scipy",
    "TF.Props.C58_unknown",
    "TF.Props.C58_known"
   ],
   "note": "Fixing and releasing parameters"
  },
  {
   "property": "C59",
   "status": "proved",
   "theorems": [
    "TF.Props.C59_bounds",
    "TF.Props.C59_unknown"
   ],
   "note": "Bounds: last setting wins"
  },
  {
   "property": "C60",
   "status": "partial",
   "theorems": [
    "TF.Props.C60_iff",
    "TF.Props.C60_refuted",
    "TF.Props.C60_last_partial",
    "TF.Props.C60_single_partial",
    "TF.Props.C60_start_partial"
   ],
   "note": "False with two or more fixed parameters (C60_refuted: late binding of the loop variable). Proved for the last fixed parameter and for a single one. C60_iff: true exactly if at most one parameter is fixed."
  },
  {
   "property": "C61",
   "status": "proved",
   "theorems": [
    "TF.Props.C61_failure",
    "TF.Props.C61_success"
   ],
   "note": "A failed scipy minimisation is reported and keeps the previous result"
  },
  {
   "property": "C62",
   "status": "proved",
   "theorems": [
    "TF.Props.C62_consistent",
    "TF.Props.C62_hessian",
    "TF.Props.C62_no_hesse",
    "TF.Props.C62_initial"
   ],
   "note": "Errors, covariance and correlation of a scipy fit agree"
  },
  {
   "property": "C63",
   "status": "proved",
   "theorems": [
    "TF.Props.C63_success",
    "TF.Props.C63_no_matrix"
   ],
   "note": "iminuit success flag"
  },
  {
   "property": "C64",
   "status": "proved",
   "theorems": [
    "TF.Props.C64_iminuit",
    "TF.Props.C64_scipy",
    "TF.Props.C64_unknown",
    "TF.Props.C64_minimizer"
   ],
   "note": "do_fit hands all fixings and bounds to the minimizer"
  },
  {
   "property": "C65",
   "status": "partial",
   "theorems": [
    "TF.Props.C65_exact_partial",
    "TF.Props.C65_last_partial",
    "TF.Props.C65_refuted"
   ],
   "note": "False when a parameter is addressed both by name and by index (C65_refuted). Proved for parameters always addressed by the same identifier. C65_exact_partial: the bounds used are always the last ones of the identifier whose first use is the most recent."
  },
  {
   "property": "C66",
   "status": "partial",
   "theorems": [
    "TF.Props.C66_refuted",
    "TF.Props.C66_argument_partial"
   ],
   "note": "False: the flag set by fix_nui_params() is never read (C66_refuted, for every model and fitter). Proved for the argument do_fit(fix_nui_params=True)."
  },
  {
   "property": "C67",
   "status": "proved",
   "theorems": [
    "TF.Props.C67_no_update",
    "TF.Props.C67_failure",
    "TF.Props.C67_update"
   ],
   "note": "do_fit updates the templates only on request"
  },
  {
   "property": "C68",
   "status": "proved",
   "theorems": [
    "TF.Props.C68_schedule",
    "TF.Props.C68_terminates",
    "TF.Props.C68_values",
    "TF.Props.C68_returns",
    "TF.Props.C68_points"
   ],
   "note": "Profile points and values correspond"
  },
  {
   "property": "C69",
   "status": "partial",
   "theorems": [
    "TF.Props.C69_scipy_partial",
    "TF.Props.C69_iff_partial",
    "TF.Props.C69_refuted"
   ],
   "note": "False: the scan releases all parameters and drops bounds (C69_refuted). C69_iff_partial, C69_scipy_partial: it holds exactly for fitters without settings, for both minimisers."
  },
  {
   "property": "C70",
   "status": "proved",
   "theorems": [
    "TF.Props.C70_parabola",
    "TF.Props.C70_half"
   ],
   "note": "Hesse approximation"
  },
  {
   "property": "C71",
   "status": "partial",
   "theorems": [
    "TF.Props.C71_scipy_partial",
    "TF.Props.C71_formula",
    "TF.Props.C71_nonneg_partial",
    "TF.Props.C71_refuted"
   ],
   "note": "NaN is possible when the signal yield is fixed (C71_refuted). Proved under the documented use: yield not fixed and its bounds contain zero. C71_scipy_partial is the same for the scipy minimiser."
  },
  {
   "property": "C72",
   "status": "partial",
   "theorems": [
    "TF.Props.C72_unknown_partial",
    "TF.Props.C72_partial",
    "TF.Props.C72_refuted"
   ],
   "note": "False: the tested yield is left at zero (C72_refuted). C72_partial gives the complete effect of the call for a process of the model, C72_unknown_partial for any other name."
  },
  {
   "property": "C73",
   "status": "proved",
   "theorems": [
    "TF.Props.C73_rows"
   ],
   "note": "A toy study holds exactly the requested experiments"
  },
  {
   "property": "C74",
   "status": "proved",
   "theorems": [
    "TF.Props.C74_retries"
   ],
   "note": "Retries are bounded and only for RuntimeError"
  },
  {
   "property": "C75",
   "status": "proved",
   "theorems": [
    "TF.Props.C75_model"
   ],
   "note": "Toy studies do not change the model parameters"
  },
  {
   "property": "C76",
   "status": "proved",
   "theorems": [
    "TF.Props.C76_pulls",
    "TF.Props.C76_not_fitted"
   ],
   "note": "Pulls"
  },
  {
   "property": "C77",
   "status": "proved",
   "theorems": [
    "TF.Props.C77_linearity"
   ],
   "note": "Linearity test points"
  },
  {
   "property": "C78",
   "status": "partial",
   "theorems": [
    "TF.Props.C78_positive_partial",
    "TF.Props.C78_same_partial",
    "TF.Props.C78_empty_refuted",
    "TF.Props.C78_negative_refuted"
   ],
   "note": "False for empty data bins and negative expectations (-inf instead of the expectation / NaN). Proved for data without empty bins."
  },
  {
   "property": "C79",
   "status": "partial",
   "theorems": [
    "TF.Props.C79_projections_partial",
    "TF.Props.C79_refuted"
   ],
   "note": "False after a fill with tuple weights (C79_refuted: the cache is cleared only at the end). Proved for all other histories."
  },
  {
   "property": "C80",
   "status": "proved",
   "theorems": [
    "TF.Props.C80_scale",
    "TF.Props.C80_commute",
    "TF.Props.C80_fresh"
   ],
   "note": "Legacy histogram scaling"
  },
  {
   "property": "C81",
   "status": "proved",
   "theorems": [
    "TF.Props.C81_update",
    "TF.Props.C81_reset",
    "TF.Props.C81_wrong_length"
   ],
   "note": "Legacy stacked template parameter update"
  },
  {
   "property": "C82",
   "status": "partial",
   "theorems": [
    "TF.Props.C82_refuted"
   ],
   "note": "False: infinite recursion (C82_refuted)."
  },
  {
   "property": "C83",
   "status": "proved",
   "theorems": [
    "TF.Props.C83_toy"
   ],
   "note": "Toy data sets"
  },
  {
   "property": "C84",
   "status": "proved",
   "theorems": [
    "TF.Props.C84_templates",
    "TF.Props.C84_models"
   ],
   "note": "Models built from physical inputs are well described"
  },
  {
   "property": "C85",
   "status": "proved",
   "theorems": [
    "TF.Props.C85_hist1",
    "TF.Props.C85_hist2"
   ],
   "note": "Histograms from construction to observation"
  },
  {
   "property": "C86",
   "status": "proved",
   "theorems": [
    "TF.Props.C86_template_errors",
    "TF.Props.C86_process_errors"
   ],
   "note": "Template and process errors"
  },
  {
   "property": "C87",
   "status": "proved",
   "theorems": [
    "TF.Props.C87_surplus",
    "TF.Props.C87_accepts",
    "TF.Props.C87_no_data",
    "TF.Props.C87_no_templates",
    "TF.Props.C87_short"
   ],
   "note": "Which parameter vectors the likelihood accepts"
  },
  {
   "property": "C88",
   "status": "proved",
   "theorems": [
    "TF.Props.C88_convex",
    "TF.Props.C88_score_sufficient",
    "TF.Props.C88_local_is_global",
    "TF.Props.C88_score_necessary",
    "TF.Props.C88_total"
   ],
   "note": "The likelihood as a function of the yields"
  },
  {
   "property": "C89",
   "status": "partial",
   "theorems": [
    "TF.Props.C89_handed_over_partial",
    "TF.Props.C89_shared_forever",
    "TF.Props.C89_user_arrays",
    "TF.Props.C89_fill_frame",
    "TF.Props.C89_yield_frame",
    "TF.Props.C89_refuted",
    "TF.Props.C89_integer",
    "TF.Props.C89_nonfinite",
    "TF.Props.C89_integer_assigned"
   ],
   "note": "False in general: from_binned_data and the params setter keep a reference to the caller's array, and fill and the setters write into it (C89_refuted, C89_shared_forever). Proved: the program behaves as if arrays were copied as long as every float array is handed over once and not written to afterwards (C89_handed_over_partial); the exact set of objects a fill or yield assignment changes (C89_fill_frame, C89_yield_frame); arrays never handed over are never written (C89_user_arrays)."
  },
  {
   "property": "C90",
   "status": "partial",
   "theorems": [
    "TF.Props.C90_pre_fit",
    "TF.Props.C90_seen_partial",
    "TF.Props.C90_data",
    "TF.Props.C90_no_data",
    "TF.Props.C90_post_fit",
    "TF.Props.C90_rejected",
    "TF.Props.C90_unknown_mode",
    "TF.Props.C90_scale_refuted",
    "TF.Props.C90_edges_refuted",
    "TF.Props.C90_template1d",
    "TF.Props.C90_template2d",
    "TF.Props.C90_projections",
    "TF.Props.C90_get_projection"
   ],
   "note": "False if templates of a channel have different inner bin edges (C90_edges_refuted: contents appear in wrong bins) and for post_fit_uncertainties=scale in models with several channels (C90_scale_refuted: ValueError); any other mode raises UnboundLocalError (C90_unknown_mode). Everything else of the statement is proved: the data handed to matplotlib, and what is seen if the edges agree (C90_seen_partial)."
  },
  {
   "property": "C91",
   "status": "proved",
   "theorems": [
    "TF.Props.C91_template",
    "TF.Props.C91_new",
    "TF.Props.C91_rejected",
    "TF.Props.C91_asimov",
    "TF.Props.C91_toy"
   ],
   "note": "A legacy template after any history of calls"
  },
  {
   "property": "C92",
   "status": "partial",
   "theorems": [
    "TF.Props.C92_sums",
    "TF.Props.C92_values",
    "TF.Props.C92_asimov",
    "TF.Props.C92_toy",
    "TF.Props.C92_update_partial",
    "TF.Props.C92_reset",
    "TF.Props.C92_shared",
    "TF.Props.C92_update_refuted",
    "TF.Props.C92_add"
   ],
   "note": "False if one template object was put into the stack under two ids (C92_update_refuted, C92_shared): the parameters do not read back. Proved for stacks of distinct objects in every reachable state; values, errors, Asimov and toy data, reset without restriction."
  },
  {
   "property": "C93",
   "status": "partial",
   "theorems": [
    "TF.Props.C93_current_partial",
    "TF.Props.C93_value",
    "TF.Props.C93_stale_refuted",
    "TF.Props.C93_grown"
   ],
   "note": "False after add_covariance_matrix on a template of the stack (C93_stale_refuted): the block matrix is computed once. Proved for every later history without that and without templates put into the stack (C93_current_partial); C93_value gives the exact value in all of these cases. C93_grown: after templates were put into the stack every call of the documented length raises."
  },
  {
   "property": "C94",
   "status": "partial",
   "theorems": [
    "TF.Props.C94_aligned",
    "TF.Props.C94_unique",
    "TF.Props.C94_created_partial",
    "TF.Props.C94_refuted"
   ],
   "note": "Unique names fail if two ids stand for templates of the same name (C94_refuted). Proved: alignment with x0, uniqueness exactly if template names differ (C94_unique), and unique names in every stack filled by create_template (C94_created_partial)."
  },
  {
   "property": "C95",
   "status": "proved",
   "theorems": [
    "TF.Props.C95_closure"
   ],
   "note": "Legacy Asimov closure"
  },
  {
   "property": "C96",
   "status": "partial",
   "theorems": [
    "TF.Props.C96_stack",
    "TF.Props.C96_template_refuted",
    "TF.Props.C96_template_partial",
    "TF.Props.C96_empty"
   ],
   "note": "False for Template.plot_on, which never returns (C96_template_refuted: method minus array). Proved for stacks in every reachable state; for single templates what is drawn before the exception."
  },
  {
   "property": "C97",
   "status": "partial",
   "theorems": [
    "TF.Props.C97_exact_partial",
    "TF.Props.C97_filled",
    "TF.Props.C97_empty_refuted",
    "TF.Props.C97_entries"
   ],
   "note": "False for empty bins, which show NaN (C97_empty_refuted). C97_exact_partial gives the value in every case for every history; bin_entries proved in full."
  },
  {
   "property": "C98",
   "status": "proved",
   "theorems": [
    "TF.Props.C98_by_name",
    "TF.Props.C98_order",
    "TF.Props.C98_programs",
    "TF.Props.C98_reachable"
   ],
   "note": "The order of the calls does not matter"
  },
  {
   "property": "C99",
   "status": "proved",
   "theorems": [
    "TF.Props.C99_history",
    "TF.Props.C99_fresh",
    "TF.Props.C99_nll",
    "TF.Props.C99_floor"
   ],
   "note": "The normalisation of a template does not matter"
  },
  {
   "property": "C100",
   "status": "proved",
   "theorems": [
    "TF.Props.C100_smooth",
    "TF.Props.C100_gradient",
    "TF.Props.C100_stationary"
   ],
   "note": "Gradient of the likelihood"
  },
  {
   "property": "C101",
   "status": "proved",
   "theorems": [
    "TF.Props.C101_value",
    "TF.Props.C101_best"
   ],
   "note": "Scaling with luminosity"
  },
  {
   "property": "C102",
   "status": "proved",
   "theorems": [
    "TF.Props.C102_set",
    "TF.Props.C102_unique",
    "TF.Props.C102_flat"
   ],
   "note": "The set of best-fit yields"
  },
  {
   "property": "C103",
   "status": "proved",
   "theorems": [
    "TF.Props.C103_exists"
   ],
   "note": "A best fit exists"
  },
  {
   "property": "C104",
   "status": "proved",
   "theorems": [
    "TF.Props.C104_domain",
    "TF.Props.C104_value"
   ],
   "note": "Where the likelihood is a number"
  },
  {
   "property": "C105",
   "status": "partial",
   "theorems": [
    "TF.Props.C105_nonneg_partial",
    "TF.Props.C105_unbounded",
    "TF.Props.C105_refuted",
    "TF.Props.C105_iff",
    "TF.Props.C105_not_ninf"
   ],
   "note": "False (C105_refuted): a bin without data contributes its expectation linearly, also if it is negative, so yields that drive the expectation of empty bins to minus infinity while keeping bins with data positive make the likelihood arbitrarily negative (C105_unbounded). Bounded below by 0 wherever the empty bins have non-negative expectations (C105_nonneg_partial). Exactly (C105_iff): with data in each channel, positive contents, non-zero relative errors and positive efficiencies the likelihood is bounded below iff every bin has data. C105_not_ninf: with non-negative efficiencies and bin fractions it is never minus infinity unless a yield is."
  },
  {
   "property": "C106",
   "status": "proved",
   "theorems": [
    "TF.Props.C106_scipy",
    "TF.Props.C106_scipy_asimov",
    "TF.Props.C106_minimum",
    "TF.Props.C106_exact",
    "TF.Props.C106_asimov"
   ],
   "note": "A fit to Asimov data returns the truth"
  },
  {
   "property": "C107",
   "status": "proved",
   "theorems": [
    "TF.Props.C107_probability",
    "TF.Props.C107_order"
   ],
   "note": "The integral (scipy.integrate.quad over the chi2 density) is a hypothesis of the theorems: it is taken to be exact. Proved: values in (0,1], 1 exactly for agreement, strictly decreasing in the statistic."
  },
  {
   "property": "C108",
   "status": "proved",
   "theorems": [
    "TF.Props.C108_gof"
   ],
   "note": "The likelihood is half the goodness-of-fit statistic"
  },
  {
   "property": "C109",
   "status": "partial",
   "theorems": [
    "TF.Props.C109_nonneg_partial",
    "TF.Props.C109_refuted",
    "TF.Props.C109_scipy_partial"
   ],
   "note": "Refuted for fix_nui_params=True: profile (fitter.py:206-287) fixes the nuisance parameters in the nominal fit but not at the scan points, so profile values can be negative (C109_refuted). Proved for fix_nui_params=False with iminuit (C109_nonneg_partial) and with scipy (C109_scipy_partial) and a minimiser that returns true minima."
  },
  {
   "property": "C110",
   "status": "partial",
   "theorems": [
    "TF.Props.C110_state",
    "TF.Props.C110_refit_partial",
    "TF.Props.C110_refuted"
   ],
   "note": "Refuted when a fixed yield belongs to a process whose efficiencies do not add up to 1: update_parameters stores yield times efficiency in each template, x0 sums these over the channels, so the second fit fixes the yield at a different value and finds another minimum (C110_refuted). C110_state gives the state after the first fit exactly; C110_refit_partial proves the property for iminuit when every fixed yield has efficiencies that add up to 1 (any efficiencies for free yields)."
  },
  {
   "property": "C111",
   "status": "proved",
   "theorems": [
    "TF.Props.C111_exchange",
    "TF.Props.C111_independent"
   ],
   "note": "Channels without common processes are fitted independently"
  },
  {
   "property": "C112",
   "status": "proved",
   "theorems": [
    "TF.Props.C112_nan",
    "TF.Props.C112_no_fit"
   ],
   "note": "A template without entries cannot go unnoticed"
  },
  {
   "property": "C113",
   "status": "partial",
   "theorems": [
    "TF.Props.C113_exists_partial",
    "TF.Props.C113_unbounded",
    "TF.Props.C113_no_minimum",
    "TF.Props.C113_refuted"
   ],
   "note": "Refuted for channels with an empty data bin: the nuisance parameter of that bin can make its content negative and the sum of the template small, which inflates the expectation of the bins with data without changing the total, so that the likelihood falls below every bound (C113_unbounded, for every such model and with all other parameters held fixed; C113_refuted: concrete model with the yield fixed; C113_no_minimum: a fit with a minimiser that finds true minima then returns no finite minimum). Proved: a joint minimum exists within limits on the nuisance parameters that keep the template contents non-negative (C113_exists_partial)."
  },
  {
   "property": "C114",
   "status": "partial",
   "theorems": [
    "TF.Props.C114_ndarray",
    "TF.Props.C114_origin",
    "TF.Props.C114_current_partial",
    "TF.Props.C114_refuted"
   ],
   "note": "False (C114_refuted): lru_cache cannot hash numpy arrays, so every documented call raises TypeError (C114_ndarray); with a tuple, a call after the function changed returns the old matrix. C114_origin: what any call after any history returns; C114_current_partial: correct for tuples and functions that do not change."
  },
  {
   "property": "C115",
   "status": "proved",
   "theorems": [
    "TF.Props.C115_mids",
    "TF.Props.C115_geometry",
    "TF.Props.C115_width",
    "TF.Props.C115_width_equal",
    "TF.Props.C115_assign",
    "TF.Props.C115_then_fill"
   ],
   "note": "Geometry and assignments of legacy histograms"
  },
  {
   "property": "C116",
   "status": "proved",
   "theorems": [
    "TF.Props.C116_efficiency"
   ],
   "note": "Only yield times efficiency matters"
  },
  {
   "property": "C117",
   "status": "proved",
   "theorems": [
    "TF.Props.C117_bins"
   ],
   "note": "The numbering of the bins does not matter"
  },
  {
   "property": "C118",
   "status": "proved",
   "theorems": [
    "TF.Props.C118_unused"
   ],
   "note": "Unused processes do not influence the likelihood"
  },
  {
   "property": "C119",
   "status": "proved",
   "theorems": [
    "TF.Props.C119_exact",
    "TF.Props.C119_scipy",
    "TF.Props.C119_asimov"
   ],
   "note": "C119_exact (iminuit), C119_scipy, C119_asimov (both minimizers, from the model and its Asimov data). Hypotheses: optimiser returns true constrained minima, no template object used twice (set_yield needs it, C50), identifiable yields."
  },
  {
   "property": "C120",
   "status": "proved",
   "theorems": [
    "TF.Props.C120_iminuit",
    "TF.Props.C120_scipy",
    "TF.Props.C120_compare",
    "TF.Props.C120_fixing",
    "TF.Props.C120_minimizers"
   ],
   "note": "C120_iminuit and C120_scipy describe every result of do_fit; C120_fixing and C120_minimizers are consequences. Bounds of one parameter always registered under the same identifier (else C65_refuted); scipy with at most one fixed parameter (else C60_refuted)."
  },
  {
   "property": "C121",
   "status": "proved",
   "theorems": [
    "TF.Props.C121_best",
    "TF.Props.C121_iminuit",
    "TF.Props.C121_scipy",
    "TF.Props.C121_programs"
   ],
   "note": "Fit results do not depend on the order of the calls"
  },
  {
   "property": "C122",
   "status": "partial",
   "theorems": [
    "TF.Props.C122_surplus",
    "TF.Props.C122_accepts",
    "TF.Props.C122_short_partial",
    "TF.Props.C122_yields_only",
    "TF.Props.C122_touches",
    "TF.Props.C122_refuted"
   ],
   "note": "False (C122_refuted: called with the yields but without nuisance parameters, update_parameters raises after it has overwritten the yield of the first template, C122_yields_only; the start values of the next fit change). Proved: exactly which vectors are accepted, surplus ignored, nothing but template parameters can change (C122_touches), vectors too short for a used yield leave everything unchanged (C122_short_partial)."
  },
  {
   "property": "C123",
   "status": "proved",
   "theorems": [
    "TF.Props.C123_direction",
    "TF.Props.C123_equations",
    "TF.Props.C123_total",
    "TF.Props.C123_iminuit",
    "TF.Props.C123_scipy"
   ],
   "note": "Fit results satisfy the likelihood equations"
  },
  {
   "property": "C124",
   "status": "proved",
   "theorems": [
    "TF.Props.C124_exact",
    "TF.Props.C124_sum",
    "TF.Props.C124_fills",
    "TF.Props.C124_events",
    "TF.Props.C124_sharp"
   ],
   "note": "Unweighted histogram contents are exact in floating point"
  },
  {
   "property": "C125",
   "status": "proved",
   "theorems": [
    "TF.Props.C125_exact",
    "TF.Props.C125_fractions",
    "TF.Props.C125_values",
    "TF.Props.C125_double"
   ],
   "note": "Template fractions and values stay in range in floating point"
  },
  {
   "property": "C126",
   "status": "proved",
   "theorems": [
    "TF.Props.C126_exact",
    "TF.Props.C126_fractions",
    "TF.Props.C126_expected",
    "TF.Props.C126_fractions_double",
    "TF.Props.C126_expected_double"
   ],
   "note": "Floating-point accuracy of fractions and expected events"
  },
  {
   "property": "C127",
   "status": "proved",
   "theorems": [
    "TF.Props.C127_exact",
    "TF.Props.C127_likelihood",
    "TF.Props.C127_double"
   ],
   "note": "Floating-point accuracy of the likelihood"
  },
  {
   "property": "C128",
   "status": "proved",
   "theorems": [
    "TF.Props.C128_exact",
    "TF.Props.C128_likelihood",
    "TF.Props.C128_double"
   ],
   "note": "Floating-point accuracy of the likelihood of the whole model"
  },
  {
   "property": "C129",
   "status": "proved",
   "theorems": [
    "TF.Props.C129_edges",
    "TF.Props.C129_hist",
    "TF.Props.C129_exact",
    "TF.Props.C129_double"
   ],
   "note": "Equal-width bin edges in floating point"
  },
  {
   "property": "C130",
   "status": "proved",
   "theorems": [
    "TF.Props.C130_hist1d",
    "TF.Props.C130_hist2d",
    "TF.Props.C130_double"
   ],
   "note": "Weighted histogram contents in floating point"
  },
  {
   "property": "C131",
   "status": "proved",
   "theorems": [
    "TF.Props.C131_curvature",
    "TF.Props.C131_yields",
    "TF.Props.C131_asimov",
    "TF.Props.C131_no_flat",
    "TF.Props.C131_hesse_exists",
    "TF.Props.C131_hesse_unique",
    "TF.Props.C131_hesse_posdef",
    "TF.Props.C131_fit"
   ],
   "note": "C131_curvature, C131_yields, C131_asimov, C131_no_flat: exact formula; C131_hesse_exists/unique/posdef: the matrix; C131_fit: the covariance do_fit returns. Exact minimization (TrueMinScipy) and differentiation (ExactHesse) are hypotheses on the external optimiser."
  },
  {
   "property": "C132",
   "status": "partial",
   "theorems": [
    "TF.Props.C132_same_partial",
    "TF.Props.C132_overestimate_partial",
    "TF.Props.C132_refuted"
   ],
   "note": "False (C132_refuted: fits with the yield fixed, or with fix_nui_params=True, report positive errors for the fixed parameters). C132_same_partial: the errors do not depend on what is fixed; C132_overestimate_partial: never underestimated, strictly overestimated for correlated parameters."
  },
  {
   "property": "C133",
   "status": "proved",
   "theorems": [
    "TF.Props.C133_exact",
    "TF.Props.C133_pearson",
    "TF.Props.C133_default",
    "TF.Props.C133_double"
   ],
   "note": "Floating-point accuracy of the chi-square statistics"
  },
  {
   "property": "C134",
   "status": "partial",
   "theorems": [
    "TF.Props.C134_cowan_partial",
    "TF.Props.C134_refuted"
   ],
   "note": "False (C134_refuted: one bin, 11 events, expectation 11 - 2^-48, double precision). Proved: absolute error bound (C134_cowan_partial), so the statistic is never below minus that bound."
  },
  {
   "property": "C135",
   "status": "proved",
   "theorems": [
    "TF.Props.C135_mean",
    "TF.Props.C135_truth",
    "TF.Props.C135_score",
    "TF.Props.C135_information"
   ],
   "note": "Averages over toy experiments"
  },
  {
   "property": "C136",
   "status": "proved",
   "theorems": [
    "TF.Props.C136_pearson",
    "TF.Props.C136_total"
   ],
   "note": "Goodness of fit and event numbers of toy data"
  },
  {
   "property": "C137",
   "status": "proved",
   "theorems": [
    "TF.Props.C137_events",
    "TF.Props.C137_study",
    "TF.Props.C137_unbiased",
    "TF.Props.C137_yield"
   ],
   "note": "C137_events (one fit), C137_study (rows of a toy study), C137_unbiased (law, mean, variance), C137_yield (one process). The true minimizer and the Poisson law of the generator are hypotheses on the externals; ToyStat5/6 show cases that meet them, with every fit returning."
  },
  {
   "property": "C138",
   "status": "partial",
   "theorems": [
    "TF.Props.C138_no_events",
    "TF.Props.C138_attempt",
    "TF.Props.C138_rows_partial",
    "TF.Props.C138_refuted"
   ],
   "note": "False (C138_refuted: one process expecting 1/2 event; every row of every study reports at least 1, and studies that repeat the empty data sets return). C138_no_events, C138_attempt, C138_rows_partial: every row has at least one event for every process."
  },
  {
   "property": "C139",
   "status": "proved",
   "theorems": [
    "TF.Props.C139_hesse",
    "TF.Props.C139_total",
    "TF.Props.C139_yield",
    "TF.Props.C139_toys"
   ],
   "note": "C139_hesse (second derivatives at a stationary point), C139_total (the covariance of do_fit), C139_yield (one process), C139_toys. The exact minimizer and differentiation are hypotheses on the externals (as in C131); the example fits the two-channel model."
  },
  {
   "property": "C140",
   "status": "proved",
   "theorems": [
    "TF.Props.C140_fit",
    "TF.Props.C140_toys"
   ],
   "note": "C140_fit (one data set), C140_toys (averages, tail probabilities, number of events). That the fits return finite values and non-negative expectations is a hypothesis (yields can be bounded from below; C105 shows what happens otherwise); the example proves it for the two-channel model."
  },
  {
   "property": "C141",
   "status": "partial",
   "theorems": [
    "TF.Props.C141_counts_live",
    "TF.Props.C141_params_live",
    "TF.Props.C141_writes",
    "TF.Props.C141_copy_partial",
    "TF.Props.C141_reset_partial",
    "TF.Props.C141_refuted"
   ],
   "note": "Refuted (C141_counts_live, C141_params_live, C141_writes for all programs; C141_refuted is one program). The partials: copies (C141_copy_partial), arrays read before reset (C141_reset_partial). The references are those of Model/Alias.lean; template.cov_mat, which is changed in place too, is a value in the model."
  },
  {
   "property": "C142",
   "status": "proved",
   "theorems": [
    "TF.Props.C142_resolves",
    "TF.Props.C142_bins",
    "TF.Props.C142_yields",
    "TF.Props.C142_luminosity"
   ],
   "note": "C142_bins, C142_yields (explicit constants), C142_resolves (linearly independent shapes give such a constant), C142_luminosity (yields L times as large). As in C140 the fits return by hypothesis (finite value, non-negative expectations); the example proves this for all toy data sets of the two-channel model."
  },
  {
   "property": "C143",
   "status": "proved",
   "theorems": [
    "TF.Props.C143_exact",
    "TF.Props.C143_total",
    "TF.Props.C143_yield_exact",
    "TF.Props.C143_yield"
   ],
   "note": "C143_exact and C143_total (number of events), C143_yield_exact and C143_yield (one process). Lemmas/PoissonClt: the standardised Poisson law converges weakly to the normal law (characteristic functions, Levy continuity), hence the coverage of N +- t sqrt(N). Random generator as in C137; fits that fail are allowed with probability eta. In the example only the toys that agree with the expectation are shown to be fitted."
  },
  {
   "property": "C144",
   "status": "partial",
   "theorems": [
    "TF.Props.C144_refuted",
    "TF.Props.C144_study",
    "TF.Props.C144_pull",
    "TF.Props.C144_biased",
    "TF.Props.C144_mean_partial",
    "TF.Props.C144_limit_partial"
   ],
   "note": "C144_refuted: one bin, eight events; every toy with events has a pull, their mean is negative (C144_biased: so it is in every model with M >= 4). C144_study, C144_pull: the exact pull (N - M) / sqrt N. C144_mean_partial, C144_limit_partial: mean at most 2 / sqrt M, distribution function converges to the normal one. Toys without events fail (C138) and are counted as pull 0. A Minuit whose HESSE errors are exact is a hypothesis (ExactErrors)."
  },
  {
   "property": "C145",
   "status": "proved",
   "theorems": [
    "TF.Props.C145_fixing",
    "TF.Props.C145_asimov",
    "TF.Props.C145_prior",
    "TF.Props.C145_constraint",
    "TF.Props.C145_constraint_asimov"
   ],
   "note": "C145_fixing: any two iminuit fits ending at the same parameters with a positive definite matrix of second derivatives there, the second holding more fixed. C145_asimov: fits to Asimov data, where both hypotheses are proved. C145_constraint, C145_constraint_asimov: one more Gaussian constraint. C145_prior: nuisance errors at most sqrt of the diagonal entry of the correlation matrix (one). Exactness of the HESSE errors is a hypothesis (ExactErrors); for scipy C132 shows the errors ignore what is fixed."
  },
  {
   "property": "C146",
   "status": "proved",
   "theorems": [
    "TF.Props.C146_program",
    "TF.Props.C146_scaling",
    "TF.Props.C146_asimov"
   ],
   "note": "C146_program: update_parameters then generate_asimov_dataset then do_fit, in two sessions; C146_asimov and C146_scaling (any data, one L times the other) for two given models. The proof writes the matrix of second derivatives as data part plus prior part and compares the diagonals of the inverses. Exactness of the HESSE errors is a hypothesis (ExactErrors). Example: two channels, four nuisance parameters, L = 4: the yield error doubles exactly when the nuisance parameters are held fixed."
  },
  {
   "property": "C147",
   "status": "proved",
   "theorems": [
    "TF.Props.C147_combination",
    "TF.Props.C147_weighted"
   ],
   "note": "C147_combination: the channels of the smaller model are the first ones of the larger; data of both are the exact expectations of the same yields (Asimov); no bounds. closure_from extends C106 to start points away from the truth. Exactness of the HESSE errors is a hypothesis (ExactErrors). Example: the first channel of a two-channel model, fitted from a wrong yield, and the two-channel model. C147_weighted: without constraints the inverse squared errors of the separate fits of the first and of the further channels add up to at most that of the combined fit (all parameters free or all nuisance parameters fixed)."
  },
  {
   "property": "C148",
   "status": "proved",
   "theorems": [
    "TF.Props.C148_merging"
   ],
   "note": "C148_merging: both data sets are the exact expectations of the same yields (Asimov), nuisance parameters held fixed at zero, no bounds; the second part (same composition) gives equality. Merged describes the coarse model through the contents of its templates; its edges play no role for the fit. Exactness of the HESSE errors is a hypothesis (ExactErrors). Example: a channel with contents 2 and 4 and the same with the two bins merged."
  },
  {
   "property": "C149",
   "status": "partial",
   "theorems": [
    "TF.Props.C149_merge_partial",
    "TF.Props.C149_program_partial",
    "TF.Props.C149_refuted",
    "TF.Props.C149_program2_partial",
    "TF.Props.C149_template_partial",
    "TF.Props.C149_projection_partial",
    "TF.Props.C149_yprojection_partial"
   ],
   "note": "C149_program_partial: any constructors and any fills, no finite event beyond the last edge; C149_program2_partial: the same for two dimensions; C149_projection_partial, C149_yprojection_partial: merging commutes with the projections; C149_template_partial: templates made from a histogram and its merged version; C149_merge_partial: one fill of any two histograms of which one holds the merged contents. C149_refuted: an event just beyond the last edge, within scipy's rounding tolerance, which depends on the smallest bin width, is counted in the coarse histogram only (edges 0, 0.1, 1 against 0, 1; event 1 + 3e-7)."
  }
 ]
}

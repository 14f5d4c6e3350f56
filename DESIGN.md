# Formal model of welschma/TemplateFitter in Lean 4

The model lives in `lean/Verif/`. Numbers are IEEE-like extended reals without
rounding; objects that Python shares by reference (histograms, templates,
channels) live in a heap; exceptions are values; methods that can raise half-way
return the exception *and* the state they leave behind.

## 1. Architecture

| module | models | source |
|---|---|---|
| `Verif/Model/Fl.lean` | float64 as ℝ ∪ {+inf, -inf, nan}, no rounding / overflow / signed zero | numpy semantics |
| `Verif/Model/Round.lean`, `RoundChannel.lean`, `RoundMct.lean`, `RoundEdges.lean`, `RoundStats.lean` | fills, bin fractions, template values, expected events, likelihood contribution of a channel and likelihood of the whole model with every operation rounded; IEEE double `float64` (nearest, ties to even, gradual underflow, overflow) | numpy semantics |
| `Verif/Model/Np.lean` | the numpy/scipy calls used (broadcasting, split, matmul, diag, inv, linspace, digitize, binned_statistic, block_diag, nan_to_num, rint, lru_cache) | external libraries, assumed behaviour |
| `Verif/Model/Hist.lean` | Hist1d, Hist2d, hist_utils | templatefitter/histograms/* |
| `Verif/Model/Utility.lean` | cov2corr, corr2cov, id_to_index, xlogyx, get_systematic_cov_mat, array_split_into | templatefitter/utility.py |
| `Verif/Model/Stats.lean` | chi2 / likelihood-ratio statistics | templatefitter/stats.py |
| `Verif/Model/Template.lean`, `TmplRun.lean` | AbstractTemplate, Template1d, Template2d; histories of calls on one template | templatefitter/templates/{abstract_template,template1d,template2d}.py |
| `Verif/Model/Channel.lean` | Channel incl. its three lru_caches; the heap `World` | templatefitter/templates/channel.py |
| `Verif/Model/Mct.lean` | MultiChannelTemplate, NegLogLikelihood | templatefitter/templates/multi_channel_template.py |
| `Verif/Model/Sys.lean` | the whole public API as a state machine (`Op`, `Sys.step`, `Sys.Reachable`) | all of the above |
| `Verif/Model/Alias.lean` | which numpy arrays objects share with each other and the caller (refines the single-object part of `Sys`) | hist1d.py, hist2d.py, abstract_template.py |
| `Verif/Model/Plot.lean` | what the plotting methods hand to matplotlib | channel.py, template1d.py, template2d.py |
| `Verif/Model/Minimizer.lean` | Parameters, IMinuitMinimizer, ScipyMinimizer | templatefitter/minimizer.py |
| `Verif/Model/Fitter.lean` | TemplateFitter incl. the process pool of `profile` | templatefitter/fitter.py |
| `Verif/Model/Toy.lean` | ToyStudy | templatefitter/toy_study.py |
| `Verif/Model/Legacy.lean` | histogram_legacy, templates_legacy, nll | legacy modules |
| `Verif/Model/LegacySys.lean` | legacy `Hist1d`, and all legacy objects as a heap of objects that refer to each other (`LCmd`, `LSys.step`, `LSys.run`) | legacy modules |
| `Verif/Spec.lean` | small specification vocabulary, independent of the model's code | - |
| `Verif/Lemmas/*` | helper lemmas (invariants, frames, evaluation formulas) | - |
| `Verif/Props/*` | the property theorems, each followed by a non-vacuity `example` | - |

Reading order for a property: its line in `properties.jsonl`, then the theorem(s)
named in `MANIFEST.json` (all in `Verif/Props`, namespace `TF.Props`), whose
statements use API functions of `Verif/Model` on one side and either closed
real formulas or notions from `Verif/Spec.lean` (or a small definition directly
above the theorem) on the other.

## 2. Plan per property

Histograms (C01-C09). Model `fill` over scipy's `binned_statistic` (digitize,
right-edge shift, bincount). The specification says in which half-open interval
an event lies; theorems by list induction, the fill histories by induction over
the list of fills. Non-finite data and weights are included.

Utility (C10-C16). Direct functions on the extended reals; theorems reduce them
to closed real formulas; PSD statements via Mathlib's `Matrix.PosSemidef`.
C11, C15 are false of the code: refutation with a witness plus the true partial
statement.

Stats (C17, C18). Real-analytic facts (log inequality). C18 fails for empty bins
(0*log 0 = NaN): refutation + partial.

Templates (C19-C30). State = template record + reference to a histogram in the
heap. Invariants by induction over operation lists. C22, C25, C28, C29, C30
(partly) false: witnesses + partial theorems.

Channels (C31-C42). Channel record + heap + caches. C32, C38, C40, C41 false in
general: witnesses + partial theorems.

Multi-channel (C43-C56). Parameter vector partition; invariants over API
histories; likelihood formula, non-negativity, Asimov closure. C46, C49, C50,
C52, C53 false in general.

Minimizers (C57-C63). Bookkeeping state machines; optimisers are oracles
(arbitrary outcome), constraints handed to scipy are modelled as functions
sharing the loop variable (late binding).

Fitter (C64-C72). Configuration flow into the minimizer, optimiser oracle;
process pool modelled as arbitrary completion order over pickled copies. What is
"handed to the optimiser" is stated observationally: `HandsMinuit`/`HandsScipy`
say that the outcome of the fit depends on the optimiser only through its answer
to that one problem.

Toy studies (C73-C77, C83). State machine with oracle outcomes for toys and fits.

Legacy (C78-C82, C91-C97). Single objects first; then a heap of histograms, templates, stacks and
likelihoods and all histories of calls on them.

Rounding (C124 and later). Definitions parametric in the rounding function; summation order is an inductive relation (`SumR`), so theorems hold for numpy's pairwise sums.

C84 and later were added while the model grew; see the table in section 5.

A property that is false of the code keeps its full statement in
`properties.jsonl`; the theorem `..._refuted` proves that it fails (a reachable
witness, or for all inputs), the theorem(s) `..._partial` prove the strongest
version found that holds - where possible an exact characterisation (iff) of when
the property holds. The manifest lists these as `partial`.

Statistics of toys (C135-C144). The generator draws independent Poisson numbers (Mathlib's `poissonMeasure`, as a product
measure); this law is a hypothesis on the oracle of `generate_toy_dataset`, not an axiom. Moments and limits are proved in
`Lemmas/Poisson*`; the theorems combine them with the deterministic statements about fits (`ToyStat*`, `CovEvents`,
`Consist*`, `CoverProps`, `PullProps`).

Comparison of fits (C145-C148). Two sessions with exact minimizers and exact HESSE errors; the second derivatives of the
likelihood (C131) are compared as quadratic forms and the errors as diagonals of inverse matrices (`ErrProps`, `LumiProps`,
`CombProps*`, `MergeProps`).

Binning (C149). Both histograms are written with the accumulated contents of C85; a value lies in a coarse bin exactly if it
lies in one of the merged fine bins, except beyond the last edge where scipy's rounding depends on the smallest width
(`HistMerge*`).

## 3. Trusted base

* **Lean's kernel** (Lean 4.33.0) and the statements in `Verif/Props`, `Verif/Spec.lean`
  and the definitions in `Verif/Model`.
* **Axioms.** Every theorem depends on a subset of `propext`, `Classical.choice`,
  `Quot.sound` (Mathlib's usual three); nothing else. Exceptions that need less:
  `C12_int`, `C16_prefix` only `propext`; `C12_errors`, `C16_complete`,
  `C68_schedule` only `propext` and `Quot.sound`. No own axioms, no
  `native_decide`, no `bv_decide`.
* **Numbers.** `Fl` = ℝ plus `+inf`, `-inf`, `nan` with IEEE rules for these
  (0/0 = nan, x/0 = ±inf by the sign of x, inf-inf = nan, comparisons with nan
  false). Not modelled: rounding, overflow to inf, subnormals, signed zero;
  integer dtypes only in `Model/Alias.lean`. So equalities proved here hold in floating point only up to
  rounding; everything about control flow, exceptions and NaN/inf is exact.
  C124 and later properties named so treat rounding itself (`Model/Round.lean`): there every
  operation of the fills, fractions, values and expected events is rounded, sums may be taken in any
  order, and with the identity in place of rounding the definitions agree with the
  exact model (`C124_exact`, `C125_exact`, `C126_exact`, `C127_exact`, `C128_exact`); `log1p` and `** 2` are parameters there with an assumed relative error (`LogAccurate`, `SqAccurate`, met by correctly rounded ones: `lg64_accurate`, `sq_accurate`).
* **External libraries** (`Model/Np.lean` and oracles). Assumed, not verified:
  numpy (broadcasting, split, matmul, diag, inv, linspace), scipy
  (`binned_statistic`, `binned_statistic_2d`, `block_diag`), `functools.lru_cache`
  (128 entries, LRU), numba (IEEE division). `np.linalg.inv` is exact and raises
  exactly for singular matrices. iminuit, scipy.optimize, numdifftools, the Poisson
  generator, and `quad(chi2.pdf)` are arbitrary functions ("oracles"); theorems
  quantify over all of them. `multiprocessing.Pool.imap` is a scheduler with
  arbitrary interleaving; arguments are pickled.
* **Transcription.** The correspondence between Python source and model is by
  reading; each definition cites file and lines.

## 4. What is modelled and what is not

Modelled, statement by statement: everything in `templatefitter/histograms`,
`templatefitter/templates`, `utility.py`, `stats.py` (the three tests; the p-value
integral is a parameter), `minimizer.py`, `fitter.py`, `toy_study.py`, and of the legacy modules `Histogram`, `Hist1d`, `Hist2d`, `Template`,
`StackedTemplate`, `StackedTemplateNegLogLikelihood`.

Of plotting, the data arguments handed to matplotlib are modelled (`Model/Plot.lean`), not what matplotlib does with
them beyond the binning of `hist`/`hist2d` (`Spec.drawnHeight`, `Spec.drawnCell`).

Not modelled: colours, hatches, `pretty_*` labels, axis titles, legends, printing and
progress bars, pandas column
access, non-string names. Numerical Jacobians (numdifftools) are parameters.
In-place modification, by user code, of the arrays handed out by `bin_counts` and `params` is modelled in
`Model/Alias.lean` (C89, C141); of other arrays handed out by properties (`nui_params`, `cov_mat`, data vectors)
it is not.

Simplifications made inside definitions are stated in their comments; the main
ones: bin edges and range limits are finite; of the in-place broadcasts only the
equal-shape case is modelled, others raise; histograms hold float arrays; the
objective passed to an optimiser is the likelihood at the cache state of the start
of the fit (C40, C56 show that this makes no difference for models built before
their first evaluation).

## 5. Properties and theorems

<!-- table -->
| id | property | status | theorems (namespace `TF.Props`) | file |
|---|---|---|---|---|
| C01 | 1-D fill puts every event in its bin | proved | `C01_fill_counts`, `C01_bins_disjoint`, `C01_right_edge`, `C01_right_edge_tolerance` | HistProps |
| C02 | Squared bin errors accumulate the squared weights | proved | `C02_fill_errors`, `C02_unweighted`, `C02_unweighted_any` | HistProps, HistProps4 |
| C03 | Filling is additive and order independent | proved | `C03_fill_append`, `C03_fill_perm`, `C03_fill2_append`, `C03_fill2_perm`, `C03_fill2_state` | HistProps, HistProps2, HistProps4 |
| C04 | Total content equals the accepted weight | proved | `C04_total_content`, `C04_total_any`, `C04_total2` | HistProps, HistProps5 |
| C05 | A rejected fill leaves the histogram unchanged | partial | `C05_tuple_partial`, `C05_tuple2_partial`, `C05_refuted`, `C05_rejected_fill_partial`, `C05_rejected_fill2_partial` | ExactProps3, HistProps, HistProps2 |
| C06 | Equal-width binning | proved | `C06_hist1d`, `C06_hist2d`, `C06_equal_width`, `C06_negative` | ExactProps5, HistProps |
| C07 | from_binned_data round trip | proved | `C07_roundtrip`, `C07_default_errors`, `C07_roundtrip2`, `C07_default_errors2` | HistProps, HistProps4 |
| C08 | 2-D fill puts every event in its cell | proved | `C08_fill2` | HistProps |
| C09 | Projections preserve content | proved | `C09_xprojection`, `C09_yprojection`, `C09_projection_commutes`, `C09_yprojection_commutes` | HistProps, HistProps2 |
| C10 | cov2corr yields a correlation matrix | proved | `C10_any`, `C10_cov2corr`, `C10_cov2corr_positive` | ExactProps5, UtilityProps |
| C11 | corr2cov inverts cov2corr given the variance vector | partial | `C11_iff`, `C11_refuted`, `C11_roundtrip_partial` | ExactProps, UtilityProps |
| C12 | Parameter identifiers resolve uniquely | proved | `C12_name`, `C12_int`, `C12_errors` | UtilityProps |
| C13 | xlogyx computes x*log(y/x) with defined limits | proved | `C13_infinite`, `C13_value`, `C13_small`, `C13_zero`, `C13_negative`, `C13_special` | HistProps5, UtilityProps |
| C14 | Systematic covariance is a valid covariance | proved | `C14_systematic_cov`, `C14_mismatch` | UtilityProps |
| C15 | Up/down variations are interchangeable | partial | `C15_swap_iff`, `C15_refuted`, `C15_swap_partial` | UtilityProps |
| C16 | array_split_into partitions its input | proved | `C16_prefix`, `C16_complete`, `C16_pieces` | UtilityProps |
| C17 | Pearson chi2 is a distance | proved | `C17_pearson`, `C17_default` | StatsProps |
| C18 | Likelihood-ratio goodness of fit is a distance | partial | `C18_finite_iff`, `C18_cowan_partial`, `C18_refuted` | ExactProps, StatsProps |
| C19 | Template fractions are normalised | proved | `C19_fractions`, `C19_mismatch` | TemplateProps |
| C20 | Template values add up to the yield | proved | `C20_values_sum` | TemplateProps |
| C21 | A fresh template reproduces its histogram | proved | `C21_fresh` | TemplateProps |
| C22 | An empty template is harmless | partial | `C22_refuted`, `C22_params_partial` | TemplateProps |
| C23 | Covariance bookkeeping | proved | `C23_cov_is_sum`, `C23_relative_errors` | TemplateProps2 |
| C24 | Correlation matrices stay invertible | proved | `C24_correlation_invertible`, `C24_psd_accepted` | TemplateProps2 |
| C25 | A rejected covariance matrix leaves the template unchanged | partial | `C25_exact_partial`, `C25_refuted`, `C25_rejected_unchanged_partial` | ExactProps2, TemplateProps2 |
| C26 | Parameter setters validate and isolate | proved | `C26_setters` | TemplateProps2 |
| C27 | reset restores the initial parameters | proved | `C27_history`, `C27_reset`, `C27_reset_values`, `C27_channel_reset`, `C27_model_reset` | ExactProps5, TemplateProps2 |
| C28 | A template is a snapshot of its histogram | partial | `C28_refuted`, `C28_snapshot_partial`, `C28_all_but_yield_partial` | TemplateProps2, TemplateProps3 |
| C29 | Systematic variations use the template's binning | partial | `C29_iff`, `C29_uniform_partial`, `C29_refuted` | ExactProps2, TemplateProps2 |
| C30 | 2-D templates accept systematic variations | partial | `C30_refuted`, `C30_unchanged_partial` | TemplateProps2 |
| C31 | Channels accept exactly compatible templates | proved | `C31_accepts`, `C31_rejects`, `C31_reachable`, `C31_defined` | ChannelProps, MctProps |
| C32 | Channel templates share their binning | partial | `C32_outline_partial`, `C32_refuted` | ChannelProps |
| C33 | Channel bookkeeping is consistent | proved | `C33_bookkeeping` | ChannelProps |
| C34 | Expected events formula | proved | `C34_expected` | ChannelProps |
| C35 | Gauss term is the sum of template penalties | proved | `C35_gauss` | ChannelProps |
| C36 | Channel likelihood formula and bound | proved | `C36_nll` | ChannelProps |
| C37 | Impossible data are infinitely penalised | proved | `C37_impossible` | ChannelProps |
| C38 | Generated data sets are accepted by their channel | partial | `C38_accepted_partial`, `C38_refuted` | ChannelProps2, ChannelProps3 |
| C39 | Asimov data equal the model | proved | `C39_rounding`, `C39_asimov`, `C39_pure` | ChannelProps2 |
| C40 | Likelihood evaluation is history independent (caches are transparent) | partial | `C40_history_independent_partial`, `C40_refuted` | ChannelProps3 |
| C41 | Channel-level parameter splitting matches the fit parameters | partial | `C41_alone_partial`, `C41_single_channel_partial`, `C41_refuted`, `C41_refuted_channels` | ExactProps4, MctProps3 |
| C42 | Propagated covariance is a covariance | proved | `C42_propagated` | ChannelProps2 |
| C43 | Processes are defined once | proved | `C43_processes` | MctProps |
| C44 | Templates only for defined channels and processes | proved | `C44_defined_only` | MctProps |
| C45 | Redefining a channel starts it afresh | proved | `C45_redefine` | MctProps |
| C46 | add_data is all-or-nothing | partial | `C46_prefix_partial`, `C46_single_partial`, `C46_success_partial`, `C46_refuted` | MctProps |
| C47 | Parameter vector partition | proved | `C47_partition` | MctProps2 |
| C48 | update_parameters writes what it was given | proved | `C48_update`, `C48_channel` | MctProps2, MctProps23 |
| C49 | Fit parameters round-trip through the model | partial | `C49_formula_partial`, `C49_roundtrip_iff_partial`, `C49_refuted` | MctProps4 |
| C50 | set_yield/get_yield | partial | `C50_yield_partial`, `C50_refuted` | MctProps4 |
| C51 | x0 and param_names are aligned with the parameter vector | proved | `C51_aligned`, `C51_yields` | MctProps5 |
| C52 | Parameter names are unique | partial | `C52_iff`, `C52_unique_partial`, `C52_refuted` | MctProps5 |
| C53 | Gaussian yield constraints | partial | `C53_formula_partial`, `C53_once_partial`, `C53_undefined`, `C53_accepted`, `C53_refuted` | MctProps6 |
| C54 | Total likelihood is additive over channels | proved | `C54_additive`, `C54_closed`, `C54_reachable` | MctProps7, MctProps9 |
| C55 | Asimov closure | proved | `C55_closure` | MctProps8 |
| C56 | Evaluating the likelihood changes nothing observable | proved | `C56_nll`, `C56_observations`, `C56_repeat` | MctProps6 |
| C57 | Parameters container consistency | proved | `C57_lengths`, `C57_assign`, `C57_matrices`, `C57_lookup` | MinimizerProps |
| C58 | Fixing and releasing parameters | proved | `C58_iminuit`, `C58_scipy`, `C58_unknown`, `C58_known` | MinimizerProps |
| C59 | Bounds: last setting wins | proved | `C59_bounds`, `C59_unknown` | MinimizerProps |
| C60 | The scipy minimizer holds every fixed parameter | partial | `C60_iff`, `C60_refuted`, `C60_last_partial`, `C60_single_partial`, `C60_start_partial` | ExactProps, MinimizerProps |
| C61 | A failed scipy minimisation is reported and keeps the previous result | proved | `C61_failure`, `C61_success` | MinimizerProps |
| C62 | Errors, covariance and correlation of a scipy fit agree | proved | `C62_consistent`, `C62_hessian`, `C62_no_hesse`, `C62_initial` | MinimizerProps |
| C63 | iminuit success flag | proved | `C63_success`, `C63_no_matrix` | MinimizerProps |
| C64 | do_fit hands all fixings and bounds to the minimizer | proved | `C64_iminuit`, `C64_scipy`, `C64_unknown`, `C64_minimizer` | FitterProps2 |
| C65 | Last bounds call wins in the fitter | partial | `C65_exact_partial`, `C65_last_partial`, `C65_refuted` | ExactProps3, FitterProps3 |
| C66 | fix_nui_params() fixes the nuisance parameters | partial | `C66_refuted`, `C66_argument_partial` | FitterProps3 |
| C67 | do_fit updates the templates only on request | proved | `C67_no_update`, `C67_failure`, `C67_update` | FitterProps3 |
| C68 | Profile points and values correspond | proved | `C68_schedule`, `C68_terminates`, `C68_values`, `C68_returns`, `C68_points` | FitterProps4, FitterProps5 |
| C69 | The profile scan honours the fixed parameters | partial | `C69_scipy_partial`, `C69_iff_partial`, `C69_refuted` | FitterProps13, FitterProps5 |
| C70 | Hesse approximation | proved | `C70_parabola`, `C70_half` | FitterProps5 |
| C71 | Significance is well defined | partial | `C71_scipy_partial`, `C71_formula`, `C71_nonneg_partial`, `C71_refuted` | FitterProps12, FitterProps6, FitterProps7 |
| C72 | Significance leaves the model unchanged | partial | `C72_unknown_partial`, `C72_partial`, `C72_refuted` | FitterProps13, FitterProps8 |
| C73 | A toy study holds exactly the requested experiments | proved | `C73_rows` | ToyProps |
| C74 | Retries are bounded and only for RuntimeError | proved | `C74_retries` | ToyProps |
| C75 | Toy studies do not change the model parameters | proved | `C75_model` | ToyProps |
| C76 | Pulls | proved | `C76_pulls`, `C76_not_fitted` | ToyProps2 |
| C77 | Linearity test points | proved | `C77_linearity` | ToyProps3 |
| C78 | Legacy likelihood handles empty data bins | partial | `C78_positive_partial`, `C78_same_partial`, `C78_empty_refuted`, `C78_negative_refuted` | LegacyProps |
| C79 | Legacy projections are never stale | partial | `C79_projections_partial`, `C79_refuted` | LegacyProps2 |
| C80 | Legacy histogram scaling | proved | `C80_scale`, `C80_commute`, `C80_fresh` | LegacyProps2 |
| C81 | Legacy stacked template parameter update | proved | `C81_update`, `C81_reset`, `C81_wrong_length` | LegacyProps |
| C82 | Legacy correlation matrix is readable | partial | `C82_refuted` | LegacyProps |
| C83 | Toy data sets | proved | `C83_toy` | ToyProps2 |
| C84 | Models built from physical inputs are well described | proved | `C84_templates`, `C84_models` | MctProps9 |
| C85 | Histograms from construction to observation | proved | `C85_hist1`, `C85_hist2` | HistProps3 |
| C86 | Template and process errors | proved | `C86_template_errors`, `C86_process_errors` | MctProps10 |
| C87 | Which parameter vectors the likelihood accepts | proved | `C87_surplus`, `C87_accepts`, `C87_no_data`, `C87_no_templates`, `C87_short` | MctProps11, MctProps24 |
| C88 | The likelihood as a function of the yields | proved | `C88_convex`, `C88_score_sufficient`, `C88_local_is_global`, `C88_score_necessary`, `C88_total` | MctProps12 |
| C89 | Objects do not share state through arrays handed in | partial | `C89_handed_over_partial`, `C89_shared_forever`, `C89_user_arrays`, `C89_fill_frame`, `C89_yield_frame`, `C89_refuted`, `C89_integer`, `C89_nonfinite`, `C89_integer_assigned` | AliasProps, LegacySysProps7 |
| C90 | Plots show the model | partial | `C90_pre_fit`, `C90_seen_partial`, `C90_data`, `C90_no_data`, `C90_post_fit`, `C90_rejected`, `C90_unknown_mode`, `C90_scale_refuted`, `C90_edges_refuted`, `C90_template1d`, `C90_template2d`, `C90_projections`, `C90_get_projection` | PlotProps, PlotProps2 |
| C91 | A legacy template after any history of calls | proved | `C91_template`, `C91_new`, `C91_rejected`, `C91_asimov`, `C91_toy` | LegacySysProps, LegacySysProps3 |
| C92 | Stacked legacy templates over any history | partial | `C92_sums`, `C92_values`, `C92_asimov`, `C92_toy`, `C92_update_partial`, `C92_reset`, `C92_shared`, `C92_update_refuted`, `C92_add` | LegacySysProps3, LegacySysProps7 |
| C93 | A legacy likelihood follows its stack and data | partial | `C93_current_partial`, `C93_value`, `C93_stale_refuted`, `C93_grown` | LegacySysProps4, LegacySysProps5 |
| C94 | Legacy parameter names | partial | `C94_aligned`, `C94_unique`, `C94_created_partial`, `C94_refuted` | LegacySysProps5 |
| C95 | Legacy Asimov closure | proved | `C95_closure` | LegacySysProps5 |
| C96 | Legacy plots show the templates | partial | `C96_stack`, `C96_template_refuted`, `C96_template_partial`, `C96_empty` | LegacySysProps6 |
| C97 | Relative errors and entries of a legacy Histogram | partial | `C97_exact_partial`, `C97_filled`, `C97_empty_refuted`, `C97_entries` | LegacySysProps6 |
| C98 | The order of the calls does not matter | proved | `C98_by_name`, `C98_order`, `C98_programs`, `C98_reachable` | MctProps13, MctProps14 |
| C99 | The normalisation of a template does not matter | proved | `C99_history`, `C99_fresh`, `C99_nll`, `C99_floor` | ScaleProps |
| C100 | Gradient of the likelihood | proved | `C100_smooth`, `C100_gradient`, `C100_stationary` | MctProps16 |
| C101 | Scaling with luminosity | proved | `C101_value`, `C101_best` | MctProps15 |
| C102 | The set of best-fit yields | proved | `C102_set`, `C102_unique`, `C102_flat` | MctProps15 |
| C103 | A best fit exists | proved | `C103_exists` | MctProps17 |
| C104 | Where the likelihood is a number | proved | `C104_domain`, `C104_value` | MctProps18 |
| C105 | The likelihood is bounded below | partial | `C105_nonneg_partial`, `C105_unbounded`, `C105_refuted`, `C105_iff`, `C105_not_ninf` | MctProps18, MctProps22, ToyStat4 |
| C106 | A fit to Asimov data returns the truth | proved | `C106_scipy`, `C106_scipy_asimov`, `C106_minimum`, `C106_exact`, `C106_asimov` | FitterProps12, FitterProps9 |
| C107 | p-values are probabilities | proved | `C107_probability`, `C107_order` | StatsProps2 |
| C108 | The likelihood is half the goodness-of-fit statistic | proved | `C108_gof` | FitterProps10 |
| C109 | Profile values are never below the fitted minimum | partial | `C109_nonneg_partial`, `C109_refuted`, `C109_scipy_partial` | FitterProps10, FitterProps12 |
| C110 | Fitting again from the fitted templates changes nothing | partial | `C110_state`, `C110_refit_partial`, `C110_refuted` | FitterProps11 |
| C111 | Channels without common processes are fitted independently | proved | `C111_exchange`, `C111_independent` | MctProps19 |
| C112 | A template without entries cannot go unnoticed | proved | `C112_nan`, `C112_no_fit` | MctProps20 |
| C113 | The complete fit problem has a solution | partial | `C113_exists_partial`, `C113_unbounded`, `C113_no_minimum`, `C113_refuted` | MctProps21 |
| C114 | The numerical Hesse matrix | partial | `C114_ndarray`, `C114_origin`, `C114_current_partial`, `C114_refuted` | HesseProps |
| C115 | Geometry and assignments of legacy histograms | proved | `C115_mids`, `C115_geometry`, `C115_width`, `C115_width_equal`, `C115_assign`, `C115_then_fill` | ExactProps5, LegacySysProps7 |
| C116 | Only yield times efficiency matters | proved | `C116_efficiency` | ScaleProps2 |
| C117 | The numbering of the bins does not matter | proved | `C117_bins` | ScaleProps2 |
| C118 | Unused processes do not influence the likelihood | proved | `C118_unused` | ScaleProps2 |
| C119 | Expected significance | proved | `C119_exact`, `C119_scipy`, `C119_asimov` | FitterProps14 |
| C120 | A fit returns the constrained maximum of the likelihood | proved | `C120_iminuit`, `C120_scipy`, `C120_compare`, `C120_fixing`, `C120_minimizers` | FitterProps15 |
| C121 | Fit results do not depend on the order of the calls | proved | `C121_best`, `C121_iminuit`, `C121_scipy`, `C121_programs` | FitterProps16 |
| C122 | A rejected parameter update leaves the model unchanged | partial | `C122_surplus`, `C122_accepts`, `C122_short_partial`, `C122_yields_only`, `C122_touches`, `C122_refuted` | MctProps23 |
| C123 | Fit results satisfy the likelihood equations | proved | `C123_direction`, `C123_equations`, `C123_total`, `C123_iminuit`, `C123_scipy` | FitterProps17 |
| C124 | Unweighted histogram contents are exact in floating point | proved | `C124_exact`, `C124_sum`, `C124_fills`, `C124_events`, `C124_sharp` | RoundIds, RoundProps |
| C125 | Template fractions and values stay in range in floating point | proved | `C125_exact`, `C125_fractions`, `C125_values`, `C125_double` | RoundIds, RoundProps2, RoundProps5 |
| C126 | Floating-point accuracy of fractions and expected events | proved | `C126_exact`, `C126_fractions`, `C126_expected`, `C126_fractions_double`, `C126_expected_double` | RoundIds, RoundProps3, RoundProps5 |
| C127 | Floating-point accuracy of the likelihood | proved | `C127_exact`, `C127_likelihood`, `C127_double` | RoundIds, RoundProps4, RoundProps5 |
| C128 | Floating-point accuracy of the likelihood of the whole model | proved | `C128_exact`, `C128_likelihood`, `C128_double` | RoundIds, RoundProps6, RoundProps7 |
| C129 | Equal-width bin edges in floating point | proved | `C129_edges`, `C129_hist`, `C129_exact`, `C129_double` | RoundProps8 |
| C130 | Weighted histogram contents in floating point | proved | `C130_hist1d`, `C130_hist2d`, `C130_double` | RoundProps9 |
| C131 | Second derivatives of the likelihood and fit errors | proved | `C131_curvature`, `C131_yields`, `C131_asimov`, `C131_no_flat`, `C131_hesse_exists`, `C131_hesse_unique`, `C131_hesse_posdef`, `C131_fit` | CurvProps, CurvProps2 |
| C132 | Parameters held fixed do not contribute to the errors of a scipy fit | partial | `C132_same_partial`, `C132_overestimate_partial`, `C132_refuted` | CurvProps2 |
| C133 | Floating-point accuracy of the chi-square statistics | proved | `C133_exact`, `C133_pearson`, `C133_default`, `C133_double` | RoundProps10, RoundProps11 |
| C134 | The likelihood-ratio statistic is never negative in floating point | partial | `C134_cowan_partial`, `C134_refuted` | RoundProps10, RoundProps11 |
| C135 | Averages over toy experiments | proved | `C135_mean`, `C135_truth`, `C135_score`, `C135_information` | ToyStat |
| C136 | Goodness of fit and event numbers of toy data | proved | `C136_pearson`, `C136_total` | ToyStat2 |
| C137 | Fits to toy data are unbiased in the number of events | proved | `C137_events`, `C137_study`, `C137_unbiased`, `C137_yield` | ToyStat3 |
| C138 | Toy studies are unbiased | partial | `C138_no_events`, `C138_attempt`, `C138_rows_partial`, `C138_refuted` | ToyStat7 |
| C139 | The reported uncertainty of the number of events is the Poisson one | proved | `C139_hesse`, `C139_total`, `C139_yield`, `C139_toys` | CovEvents |
| C140 | Fits to toy data are consistent | proved | `C140_fit`, `C140_toys` | Consist |
| C141 | Values read from histograms and templates are snapshots | partial | `C141_counts_live`, `C141_params_live`, `C141_writes`, `C141_copy_partial`, `C141_reset_partial`, `C141_refuted` | AliasProps2 |
| C142 | Fitted yields converge to the true yields | proved | `C142_resolves`, `C142_bins`, `C142_yields`, `C142_luminosity` | Consist2 |
| C143 | The reported errors have the right coverage | proved | `C143_exact`, `C143_total`, `C143_yield_exact`, `C143_yield` | CoverProps |
| C144 | Pulls of toy studies follow a standard normal distribution | partial | `C144_refuted`, `C144_study`, `C144_pull`, `C144_biased`, `C144_mean_partial`, `C144_limit_partial` | PullEx, PullProps |
| C145 | Nuisance parameters, constraints and priors change the reported errors in the right direction | proved | `C145_fixing`, `C145_asimov`, `C145_prior`, `C145_constraint`, `C145_constraint_asimov` | ErrProps |
| C146 | With L times as much data the errors of the yields grow by a factor between sqrt L and L | proved | `C146_program`, `C146_scaling`, `C146_asimov` | LumiProg, LumiProps |
| C147 | Adding channels to a fit never makes the errors larger | proved | `C147_combination`, `C147_weighted` | CombProps, CombProps2 |
| C148 | Merging bins never makes the errors of the yields smaller | proved | `C148_merging` | MergeProps |
| C149 | Filling coarse bins is filling fine bins and merging them | partial | `C149_merge_partial`, `C149_program_partial`, `C149_refuted`, `C149_program2_partial`, `C149_template_partial`, `C149_projection_partial`, `C149_yprojection_partial` | HistMerge, HistMerge2, HistMerge3, HistMerge4 |
<!-- /table -->

## 6. Defects of the code found

Each is a theorem `..._refuted` about the model (witness reachable through the API).

| id | defect | source |
|---|---|---|
| C05 | `fill` with tuple weights raises after having changed the counts | hist1d.py:57-73 |
| C11 | `corr2cov` documents variances but needs standard deviations | utility.py:34-51 |
| C15 | exchanging up and down variation changes the covariance (bins with up = down) | utility.py:122-129 |
| C18 | likelihood-ratio statistic is NaN for empty data bins | stats.py:93 |
| C22 | templates from empty histograms are NaN, not zero | abstract_template.py:240-243 |
| C25 | a covariance matrix whose inversion fails stays registered | abstract_template.py:184-199 |
| C28 | `reset` reads the live histogram | abstract_template.py:129-133 |
| C29 | `add_variation` uses equal-width bins whatever the template's bins | template1d.py:44-56 |
| C30 | `Template2d.add_variation` always raises TypeError | template2d.py:60 |
| C32 | channels do not compare bin edges | channel.py:497-505 |
| C38 | a channel with a list as range rejects its own data sets | channel.py:502-505 |
| C40 | lru_caches serve stale efficiencies, indices and correlation matrices | channel.py:149, 459, 486 |
| C41 | `bin_counts_from_param_values` misreads a multi-channel fit result | channel.py:166-207 |
| C46 | `add_data` is not atomic | multi_channel_template.py:158-173 |
| C49, C50 | yields are summed over channels after multiplication by efficiencies that need not sum to one | multi_channel_template.py:30-43 |
| C52 | parameter names can collide | multi_channel_template.py:379 |
| C53 | constraining a process twice counts the last constraint twice | multi_channel_template.py:90-97 |
| C60 | scipy constraints all pin the last fixed parameter (late-binding lambda) | minimizer.py:420-446 |
| C65 | bounds set by name and by index are kept separately | fitter.py:125-137 |
| C66 | `fix_nui_params()` has no effect | fitter.py:45-46 |
| C69 | the profile scan drops fixed parameters and bounds | fitter.py:206-287 |
| C71 | NaN significance when the signal yield is fixed away from zero | fitter.py:373 |
| C72 | `get_significance` leaves the signal yield at zero | fitter.py:345-349 |
| C78 | legacy likelihood is -inf for empty data bins | nll.py:160-165 |
| C79 | stale legacy projection after a failed fill | histogram_legacy.py:342-367 |
| C82 | legacy `corr_mat` recurses for ever | templates_legacy.py:374-378 |
| C89 | histograms and templates share arrays with the caller and each other | hist1d.py:88-91, abstract_template.py |
| C90 | stacked plots use the edges of the first template for all; `scale` mode fails for several channels | channel.py:211-352 |
| C92 | one template object under two ids of a stack: parameters do not read back | templates_legacy.py:617-637 |
| C93 | a legacy likelihood keeps the correlation matrices of the time it was made | nll.py:111-114 |
| C94 | legacy parameter names collide for templates of the same name | nll.py:123-134 |
| C96 | legacy `Template.plot_on` always raises TypeError | templates_legacy.py:269 |
| C97 | `bin_rel_errors` is NaN for empty bins; the 1e-7 floor never applies there | histogram_legacy.py:134-139 |
| C105 | the likelihood is unbounded below if bins without data may have a negative expectation | utility.py:86-104 |
| C109 | with fix_nui_params=True the nominal fit fixes the nuisance parameters but the scan points do not: profile values below the minimum | fitter.py:206-287 |
| C110 | a fixed yield changes value (times the sum of its efficiencies) when the fit result is stored in the templates: fitting again finds another minimum | multi_channel.py update_parameters, x0 |
| C113 | a bin without data lets its nuisance parameter drive the likelihood to minus infinity at fixed, positive yields (negative content in the empty bin, vanishing sum of the template): do_fit without nui_param_limits has no true minimum | utility.py:86-104, abstract_template.py:240-243 |
| C114 | `calculate_hesse_matrix` hashes its arguments: TypeError for every numpy array; for tuples the matrix of an earlier state of the function is returned | minimizer.py:448-467 |
| C122 | `update_parameters` assigns template by template: a vector that is too short raises after some templates were overwritten (with the yields alone: the first template) | multi_channel_template.py:258-277, channel.py:156-164 |
| C132 | the covariance of a scipy fit inverts the second derivatives in all parameters, the fixed ones included: fixed parameters get errors and enlarge those of correlated free ones | minimizer.py:388-392 |
| C134 | the likelihood-ratio statistic can be negative in double precision (11 events, expectation 11 − 2⁻⁴⁸): `n log(n/ν) + ν − n` cancels | stats.py:94 |
| C138 | a toy study repeats attempts whose fit raises: data sets without events of a process drop out, the reported yields of rare processes are biased upwards | toy_study.py `_experiment` |
| C141 | `saved = t.params` is the live array: after a yield setter it shows the new yield, and `t.params = saved` restores nothing; `hist.bin_counts` is live too | abstract_template.py:75-107, abstract_hist.py:26-28 |
| C149 | scipy's right-edge tolerance depends on the smallest bin width: an event just beyond the last edge is counted with coarse bins and lost with fine ones (edges 0, 1 against 0, 0.1, 1; event 1 + 3e-7) | hist1d.py:57-70 |

## 7. Tests of the theorems against wrong programs

`seeded/LOG.jsonl`: one line per edit of the model in a scratch copy (definition,
edit, claim broken, declarations whose proofs failed, claim theorems that thereby no longer
build, theorems tightened).

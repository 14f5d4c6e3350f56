#!/usr/bin/env python3
"""Writes ../properties.jsonl.  Source of the property list; run after editing."""
import json, pathlib
P = []
def p(title, statement, quantifier, why, anchors):
    P.append(dict(id=f"C{len(P)+1:02d}", title=title, statement=statement,
                  quantifier=quantifier, why_tests_cant=why, anchors=anchors))
H1="templatefitter/histograms/hist1d.py"; H2="templatefitter/histograms/hist2d.py"
HU="templatefitter/histograms/hist_utils.py"; AH="templatefitter/histograms/abstract_hist.py"
UT="templatefitter/utility.py"; ST="templatefitter/stats.py"
AT="templatefitter/templates/abstract_template.py"; T1="templatefitter/templates/template1d.py"
T2="templatefitter/templates/template2d.py"; CH="templatefitter/templates/channel.py"
MC="templatefitter/templates/multi_channel_template.py"; MI="templatefitter/minimizer.py"
FI="templatefitter/fitter.py"; TO="templatefitter/toy_study.py"; NL="templatefitter/nll.py"
HL="templatefitter/histogram_legacy.py"; TL="templatefitter/templates_legacy.py"
A=lambda f,*s:[f"{f}: {x}" for x in s]

# ---- histograms -------------------------------------------------------------
p("1-D fill puts every event in its bin",
  "After Hist1d.fill(data, weights) every bin count has grown by exactly the sum of the weights of the events lying in that bin: bin i is [e_i, e_{i+1}), the last bin also owns its right edge (and the points scipy's rounding identifies with it); every other event changes nothing.",
  "every strictly increasing edge array with at least one bin, every data and weight array of equal length (entries finite, infinite or NaN), every prior histogram content",
  "tests compare a handful of data sets with numpy.histogram; bin assignment at and around every edge for every edge array is a universal statement",
  A(H1,"Hist1d.fill","Hist1d._init_bin_edges")+A(AH,"AbstractHist.bin_counts"))
p("Squared bin errors accumulate the squared weights",
  "After Hist1d.fill(data, weights) every squared bin error has grown by exactly the sum of the squared weights of the events in that bin; without weights it grows by the same amount as the count, so a histogram only filled unweighted has bin_errors_sq == bin_counts.",
  "every edge array, data, weights and any sequence of fills",
  "the equality must survive any sequence of fills, not one fill of one sample",
  A(H1,"Hist1d.fill")+A(AH,"AbstractHist.bin_errors_sq"))
p("Filling is additive and order independent",
  "Filling a histogram with two batches one after the other gives the same counts and squared errors as one fill with the concatenated batch, and permuting the (event, weight) pairs of a batch changes nothing.",
  "all batches, all permutations, 1-D and 2-D histograms, non-finite weights included",
  "a test can try a few splits and permutations only",
  A(H1,"Hist1d.fill")+A(H2,"Hist2d.fill"))
p("Total content equals the accepted weight",
  "After any sequence of fills of a fresh Hist1d, the sum of the bin counts equals the sum of the weights of all events that were inside the histogram range; events outside are dropped, never moved.",
  "every sequence of fills of every length",
  "an invariant over arbitrary fill histories",
  A(H1,"Hist1d.__init__","Hist1d.fill"))
p("A rejected fill leaves the histogram unchanged",
  "If fill raises (data and weights of different lengths, edges not strictly increasing, unusable weight container, ...), counts, squared errors and is_empty are as before the call.",
  "every data/weight argument that is rejected (weights given as None, list, array or tuple), every prior state",
  "exception safety must hold on every rejecting input",
  A(H1,"Hist1d.fill")+A(H2,"Hist2d.fill"))
p("Equal-width binning",
  "Hist1d(bins=n, range=(lo, hi)) has n+1 edges, first edge lo, last edge hi, edges strictly increasing, all widths (hi-lo)/n, bin_mids the midpoint of each bin, widths summing to hi-lo.",
  "all n >= 1 and all lo < hi",
  "holds for all n, lo, hi; tests use one triple",
  A(H1,"Hist1d._init_bin_edges","Hist1d.bin_mids","Hist1d.bin_widths")+A(HU,"bin_mids","bin_widths","get_bin_range"))
p("from_binned_data round trip",
  "from_binned_data(counts, edges, errors) reports the given counts and edges, bin_errors equal to |errors|, range (first edge, last edge), and is_empty False; with errors omitted the squared errors equal the counts when these are non-negative and are NaN in every bin with a negative count.",
  "all counts, edges (ndarray) and errors",
  "includes negative and non-finite entries nobody enumerates in tests",
  A(H1,"Hist1d.from_binned_data")+A(AH,"AbstractHist.bin_errors"))
p("2-D fill puts every event in its cell",
  "After Hist2d.fill((x, y), weights) cell (i, j) has grown by exactly the weights of the events with x in x-bin i and y in y-bin j (same edge convention per axis) and the squared error by their squared weights.",
  "every pair of edge arrays, every data set of equal length, every prior content",
  "cell assignment is a universal statement over two axes",
  A(H2,"Hist2d.fill","Hist2d._init_bin_edges"))
p("Projections preserve content",
  "x_projection()/y_projection() of a 2-D histogram have the sum over the other axis as counts, the root of the summed squared errors as errors, and the same total content; projecting a filled fresh Hist2d gives the same counts as filling a Hist1d with the x (y) values of the events whose y (x) is in range.",
  "every 2-D histogram and every data set",
  "commutation of fill and projection for all data",
  A(H2,"Hist2d.x_projection","Hist2d.y_projection"))
# ---- utility ----------------------------------------------------------------
p("cov2corr yields a correlation matrix",
  "For a symmetric covariance matrix with positive variances cov2corr returns C_ij/sqrt(C_ii C_jj): symmetric, unit diagonal, and entries within [-1, 1] whenever the input is positive semi-definite; rows of vanishing variance (all zero) give zero rows, not NaN.",
  "all matrices of every size",
  "quantifies over all matrices and sizes",
  A(UT,"cov2corr"))
p("corr2cov inverts cov2corr given the variance vector",
  "corr2cov(cov2corr(C), variances of C) returns C, where corr2cov's second argument is documented as the variance vector.",
  "all symmetric C with positive variances",
  "round trip over all matrices; one identity-like test matrix passes by accident",
  A(UT,"corr2cov","cov2corr"))
p("Parameter identifiers resolve uniquely",
  "id_to_index(names, s) for a string s present in names returns its first position; for an int i it returns i exactly when 0 <= i < len(names); every other identifier (unknown name, negative or too large int, other types) raises ValueError.",
  "all name lists and identifiers",
  "all identifiers, including negative indices that Python lists would accept",
  A(UT,"id_to_index")+A(MI,"Parameters.param_id_to_index"))
p("xlogyx computes x*log(y/x) with defined limits",
  "xlogyx(x, y) equals x*log(y/x) for all x >= 1e-100 and y > 0 (both code branches agree), is 0 for NaN x and for x < 1e-100, is -inf for y == 0 < x, and NaN for y < 0 < x.",
  "all floats x, y including NaN and infinities",
  "branch agreement over all real pairs and the special-value table",
  A(UT,"xlogyx"))
p("Systematic covariance is a valid covariance",
  "get_systematic_cov_mat(nom, up, down) is symmetric, positive semi-definite, of rank at most one, and its diagonal is ((|up-nom|+|down-nom|)/2)^2 bin by bin.",
  "all bin count triples of any length",
  "positive semi-definiteness is a statement over all vectors",
  A(UT,"get_systematic_cov_mat"))
p("Up/down variations are interchangeable",
  "Exchanging the up and down variation does not change the systematic covariance matrix.",
  "all up/down variations",
  "fails only when some bin has up == down with a common shift, which random tests never hit",
  A(UT,"get_systematic_cov_mat"))
p("array_split_into partitions its input",
  "The arrays yielded by array_split_into(xs, sizes) concatenate to a prefix of xs (to all of xs when a None size occurs or the sizes add up to len(xs)); piece k has size k's length unless the input is exhausted; nothing after a None size is yielded.",
  "all inputs and size lists",
  "arbitrary lengths and size lists",
  A(UT,"array_split_into"))
# ---- stats ------------------------------------------------------------------
p("Pearson chi2 is a distance",
  "For positive expectations pearson_chi2_test's statistic is sum (n-nu)^2/nu, is non-negative, zero exactly when data equal expectation, and the second value is statistic/dof; the p-value is evaluated at that statistic and dof.",
  "all data/expectation vectors",
  "non-negativity and definiteness are universal",
  A(ST,"pearson_chi2_test","default_chi2_test"))
p("Likelihood-ratio goodness of fit is a distance",
  "For positive data and expectations cowan_binned_likelihood_gof's statistic is 2*sum(n log(n/nu) + nu - n), non-negative and zero exactly when data equal expectation; it is finite for every data set, including empty bins.",
  "all data/expectation vectors including empty bins",
  "convexity argument over all positive vectors; empty bins",
  A(ST,"cowan_binned_likelihood_gof"))
# ---- templates --------------------------------------------------------------
p("Template fractions are normalised",
  "template.fractions(theta) sums to one whenever the varied total sum_j n_j(1+theta_j eps_j) is not zero; entries are n_i(1+theta_i eps_i) over that total, non-negative when all varied bins are, and at theta=0 equal n_i/sum n.",
  "every template, every nuisance vector",
  "all templates and all nuisance values",
  A(AT,"AbstractTemplate.fractions","bin_fractions"))
p("Template values add up to the yield",
  "The sum over bins of template.values equals template.yield_param for every nuisance setting with non-zero varied total: nuisance parameters move events between bins but never change the yield.",
  "every reachable template state",
  "must hold for all reachable parameter settings",
  A(AT,"AbstractTemplate.values"))
p("A fresh template reproduces its histogram",
  "For a template built from a histogram with non-zero total, values equals the histogram bin counts, yield_param the total, nuisance parameters are zero, and errors are zero in empty bins and the statistical bin error in every non-empty bin; a non-empty bin without statistical error (cancelling weights cannot give this, only zero-error inputs) gets the floor 1e-7 that keeps the covariance positive.",
  "every histogram (1-D and 2-D)",
  "all histograms",
  A(AT,"AbstractTemplate._init_params","AbstractTemplate._init_errors","AbstractTemplate.values","AbstractTemplate.errors")+A(T1,"Template1d.__init__")+A(T2,"Template2d.__init__"))
p("An empty template is harmless",
  "A template built from an empty histogram has values, errors and fractions equal to zero (as the test-suite expects).",
  "every empty histogram",
  "0/0 behaviour",
  A(AT,"bin_fractions","AbstractTemplate.values"))
p("Covariance bookkeeping",
  "After any sequence of successful add_variation/add_cov_mat calls the total covariance matrix equals the sum of all matrices listed in cov_mats, the first being the statistical one; the relative errors are sqrt of its diagonal over the bin count (1e-7 in empty bins).",
  "every sequence of successful calls on every template",
  "histories of arbitrary length",
  A(AT,"AbstractTemplate._add_cov_mat","AbstractTemplate.cov_mat","AbstractTemplate.cov_mats")+A(T1,"Template1d.add_variation","Template1d.add_cov_mat"))
p("Correlation matrices stay invertible",
  "Starting from any template, any sequence of Template1d.add_variation calls (and add_cov_mat calls with positive semi-definite symmetric matrices) never fails in the matrix inversion; the total covariance stays symmetric positive definite, the correlation matrix has unit diagonal and inv_corr_mat is its two-sided inverse.",
  "every template and every sequence of systematic variations",
  "positive definiteness for all sequences",
  A(AT,"AbstractTemplate._init_errors","AbstractTemplate._add_cov_mat")+A(UT,"cov2corr","get_systematic_cov_mat"))
p("A rejected covariance matrix leaves the template unchanged",
  "If add_cov_mat raises, the template's covariance matrix, list of covariance matrices, correlation matrices and errors are as before the call.",
  "every template and every rejected matrix (wrong shape, singular correlation)",
  "exception safety on every failing input",
  A(T1,"Template1d.add_cov_mat")+A(AT,"AbstractTemplate._add_cov_mat"))
p("Parameter setters validate and isolate",
  "Setting yield_param changes exactly the yield, setting nui_params exactly the nuisance parameters, both readable back; setters raise RuntimeError (and change nothing) on wrong shapes or non-numeric yields (an empty array as yield raises ValueError and also changes nothing); the number of parameters of a template never changes.",
  "every sequence of setter calls",
  "every sequence and every ill-shaped input",
  A(AT,"AbstractTemplate.params","AbstractTemplate.yield_param","AbstractTemplate.nui_params"))
p("reset restores the initial parameters",
  "After any sequence of parameter updates template.reset() (channel.reset(), MultiChannelTemplate.reset_parameters()) restores yield = histogram total and zero nuisance parameters, hence the original values, and keeps covariance information.",
  "every history of parameter updates and systematic additions",
  "arbitrary histories",
  A(AT,"AbstractTemplate.reset")+A(CH,"Channel.reset")+A(MC,"MultiChannelTemplate.reset_parameters"))
p("A template is a snapshot of its histogram",
  "Filling a histogram after a template was built from it does not change anything observable about the template, also not after reset().",
  "every later fill",
  "needs reasoning about shared object references over histories",
  A(AT,"AbstractTemplate._init_params")+A(T1,"Template1d.__init__"))
p("Systematic variations use the template's binning",
  "Template1d.add_variation(data, up, down) adds the covariance of the up/down histograms of data in exactly the template's own bins.",
  "every template binning and data set",
  "differs only for non-uniform binning",
  A(T1,"Template1d.add_variation"))
p("2-D templates accept systematic variations",
  "Template2d.add_variation(data, up, down) adds the systematic covariance of the variation to the template.",
  "all 2-D templates and variations",
  "interface contract for all inputs",
  A(T2,"Template2d.add_variation")+A(AT,"AbstractTemplate._add_cov_mat"))
# ---- channel ----------------------------------------------------------------
p("Channels accept exactly compatible templates",
  "Channel.add_template succeeds iff the template has the channel's bins and range, the process is new to the channel and the template class matches the earlier ones; then the process is appended last with its efficiency. Otherwise RuntimeError and the channel is unchanged.",
  "every channel state, process, template",
  "decision logic over all states",
  A(CH,"Channel.add_template","Channel._add_template","Channel._check_template"))
p("Channel templates share their binning",
  "All templates of a channel (and its data histogram) have identical bin edges.",
  "every reachable channel",
  "invariant over histories, fails only for non-uniform binning",
  A(CH,"Channel._check_template","Channel._check_hist"))
p("Channel bookkeeping is consistent",
  "In every reachable channel the process list has no duplicates, num_templates = number of templates = number of efficiencies in the same order, num_nui_params = num_templates*num_bins, and every template has num_bins bins.",
  "every history of add_template/add_data calls, failing ones included",
  "invariant over arbitrary histories",
  A(CH,"Channel.num_templates","Channel.num_nui_params","Channel.processes","Channel.efficiencies"))
p("Expected events formula",
  "The expected events of a channel in bin i for yields nu and nuisance theta are sum_k nu_k eff_k f_k,i(theta_k), where theta_k is the k-th block of num_bins nuisance parameters; summed over bins they give sum_k nu_k eff_k.",
  "all channels, yields, nuisance parameters",
  "all channels and parameter vectors",
  A(CH,"Channel._expected_evts_per_bin","Channel._fractions","Channel.bin_counts_from_param_values"))
p("Gauss term is the sum of template penalties",
  "The nuisance penalty of a channel is 1/2 sum_k theta_k^T R_k^-1 theta_k over its templates (R_k correlation matrices): no cross terms between templates; it is non-negative and zero exactly at theta = 0.",
  "all channels and nuisance vectors",
  "block structure for every number and size of blocks",
  A(CH,"Channel._gauss_term","Channel._create_block_diag_inv_corr_mat"))
p("Channel likelihood formula and bound",
  "nll_contribution equals sum_i (nu_i - n_i - n_i log(nu_i/n_i)) (with n_i = 0 contributing nu_i) plus the Gauss term, is non-negative when all expectations are positive, and zero exactly when the expectation matches the data and the nuisance parameters vanish.",
  "all channels, data, parameters with positive expectations and data bins that are 0 or at least 1e-100",
  "convexity for all inputs",
  A(CH,"Channel.nll_contribution")+A(UT,"xlogyx"))
p("Impossible data are infinitely penalised",
  "If some bin holds data but the expectation there is exactly zero, the likelihood value is +inf; for a negative expectation in a bin with data it is NaN rather than a silently wrong number.",
  "all channels and parameters",
  "special-value behaviour for all inputs",
  A(CH,"Channel.nll_contribution")+A(UT,"xlogyx"))
p("Generated data sets are accepted by their channel",
  "The Asimov and toy data sets generated by a channel are accepted by add_data of that same channel.",
  "every channel with at least one template",
  "closure property for every reachable channel, including ranges given as lists",
  A(CH,"Channel.generate_asimov_dataset","Channel.generate_toy_dataset","Channel.add_data","Channel._check_hist"))
p("Asimov data equal the model",
  "generate_asimov_dataset() has bin counts equal to the sum of the current template values (rounded half-to-even when integer_values) and bin errors sqrt of the counts; it reads but never changes the templates.",
  "every channel state",
  "all states",
  A(CH,"Channel.generate_asimov_dataset")+A(MC,"MultiChannelTemplate.generate_asimov_dataset"))
p("Likelihood evaluation is history independent (caches are transparent)",
  "The value of the likelihood at x depends only on the current templates, efficiencies, data and constraints - not on earlier evaluations: memoised efficiencies, process indices and inverse correlation matrices never serve stale values.",
  "every history of evaluations, template additions and systematic additions",
  "needs all interleavings of evaluations and updates",
  A(CH,"Channel.process_indices","Channel._get_efficiencies_as_array","Channel._create_block_diag_inv_corr_mat"))
p("Channel-level parameter splitting matches the fit parameters",
  "bin_counts_from_param_values and propagate_parameter_uncertainties interpret a fit result exactly as the likelihood does.",
  "all multi-channel models and fit results",
  "depends on process order and number of channels",
  A(CH,"Channel.split_parameter_array","Channel.bin_counts_from_param_values","Channel.propagate_parameter_uncertainties"))
p("Propagated covariance is a covariance",
  "The bin-by-bin covariance J C J^T is symmetric positive semi-definite whenever the parameter covariance C is, so the post-fit bin uncertainties are real and non-negative.",
  "all Jacobians and covariance matrices of any size",
  "all matrices",
  A(CH,"Channel.propagate_parameter_uncertainties","Channel.get_post_fit_bin_uncertainty"))
# ---- multi channel ------------------------------------------------------------
p("Processes are defined once",
  "define_process appends a new name and raises RuntimeError on an existing one leaving the list unchanged; in every reachable model process names are unique and keep their definition order (indices never change).",
  "every history of API calls",
  "invariant over histories",
  A(MC,"MultiChannelTemplate.define_process","MultiChannelTemplate.process_to_index","MultiChannelTemplate.processes"))
p("Templates only for defined channels and processes",
  "add_template raises RuntimeError for undefined channel or process and changes nothing; in every reachable model each channel's processes are a duplicate-free subset of the model's processes.",
  "every history of API calls",
  "invariant over histories",
  A(MC,"MultiChannelTemplate.add_template"))
p("Redefining a channel starts it afresh",
  "define_channel with an existing name replaces that channel by one without templates and data, keeps its position and does not touch other channels; with a new name it appends.",
  "every model",
  "all models",
  A(MC,"MultiChannelTemplate.define_channel"))
p("add_data is all-or-nothing",
  "If MultiChannelTemplate.add_data raises because one of the given histograms does not fit, no channel's data have changed.",
  "all keyword argument orders",
  "partial update on the k-th argument",
  A(MC,"MultiChannelTemplate.add_data"))
p("Parameter vector partition",
  "generate_per_channel_parameters splits a parameter vector of length num_processes + num_nui_params so that each channel receives the yields of exactly its processes in its own template order, and the channels' nuisance blocks are consecutive, disjoint and cover the nuisance part completely.",
  "every model with at least one channel that was none of whose channels was extended after it was evaluated (C40 covers the others) and every parameter vector of the right length",
  "all models and vectors",
  A(MC,"MultiChannelTemplate.generate_per_channel_parameters")+A(CH,"Channel.process_indices"))
p("update_parameters writes what it was given",
  "After update_parameters(x) every template carries its nuisance block of x and yield x_process*efficiency; reading nui_params returns the nuisance part of x.",
  "every model none of whose channels was extended after it was evaluated in which every channel has a template and no template object is used twice, every x of the right length",
  "all models and vectors",
  A(MC,"MultiChannelTemplate.update_parameters","MultiChannelTemplate.nui_params")+A(CH,"Channel.update_parameters"))
p("Fit parameters round-trip through the model",
  "After update_parameters(x), the starting values x0 of the likelihood equal x, so that a refit starts at the previous optimum.",
  "all models",
  "depends on efficiencies over all channels",
  A(MC,"NegLogLikelihood.x0","MultiChannelTemplate.update_parameters","MultiChannelTemplate.process_yields"))
p("set_yield/get_yield",
  "set_yield(p, v) makes get_yield(p) return v and leaves every other process' yield unchanged; unknown processes raise RuntimeError and change nothing.",
  "all models, processes and values",
  "depends on the efficiencies and sharing of template objects",
  A(MC,"MultiChannelTemplate.set_yield","MultiChannelTemplate.get_yield"))
p("x0 and param_names are aligned with the parameter vector",
  "x0 and param_names have length num_processes + num_nui_params and position k of the names describes position k of the vector: yields in process order, then for each channel, template and bin in order.",
  "every reachable model",
  "index arithmetic for all shapes",
  A(MC,"NegLogLikelihood.x0","NegLogLikelihood.param_names"))
p("Parameter names are unique",
  "The likelihood's param_names contain no duplicates, so that a name identifies one parameter.",
  "every reachable model",
  "collisions only for particular names with underscores",
  A(MC,"NegLogLikelihood.param_names"))
p("Gaussian yield constraints",
  "Each constrained process adds (x_p - value)^2/(2 error^2) to the likelihood exactly once, using the last value and error given; undefined processes raise RuntimeError and change nothing.",
  "every sequence of add_gaussian_constraint_on_yield calls",
  "repeated calls on one process",
  A(MC,"MultiChannelTemplate.add_gaussian_constraint_on_yield","NegLogLikelihood.__call__"))
p("Total likelihood is additive over channels",
  "NegLogLikelihood(x) is the sum over channels of their contribution at (their yields, their nuisance block) plus the constraint terms, and is non-negative for positive expectations.",
  "all models set up before their first evaluation (C40 covers the others) and all parameter vectors",
  "all models",
  A(MC,"NegLogLikelihood.__call__"))
p("Asimov closure",
  "For a model whose efficiencies are the channel shares of each process' yield, the likelihood on its own Asimov data is zero at x0 and no parameter vector with positive expectations gives a smaller value: the fit closes.",
  "all models with consistent efficiencies, set up before their first evaluation",
  "global minimality over all parameter vectors",
  A(MC,"MultiChannelTemplate.generate_asimov_dataset","NegLogLikelihood.__call__","NegLogLikelihood.x0"))
p("Evaluating the likelihood changes nothing observable",
  "Calling the likelihood, x0 or param_names changes no template parameter, no data, no efficiency and no constraint.",
  "every model and argument, failing evaluations included",
  "frame condition for all inputs",
  A(MC,"NegLogLikelihood.__call__")+A(CH,"Channel.nll_contribution"))
# ---- minimizer ------------------------------------------------------------------
p("Parameters container consistency",
  "Parameters always holds as many values and errors as names: assigning a wrong length raises ValueError and keeps the old array; lookups by name and by index agree.",
  "every sequence of assignments",
  "histories",
  A(MI,"Parameters.values","Parameters.errors","Parameters.__getitem__","Parameters.get_param_value","Parameters.get_param_error"))
p("Fixing and releasing parameters",
  "After any sequence of set_param_fixed/release_params calls exactly the parameters fixed since the last release are passed as fixed to the optimiser; an unknown identifier raises ValueError and changes nothing.",
  "every sequence of calls, both minimizers",
  "histories",
  A(MI,"IMinuitMinimizer.set_param_fixed","IMinuitMinimizer.release_params","ScipyMinimizer.set_param_fixed","ScipyMinimizer.release_params"))
p("Bounds: last setting wins",
  "After any sequence of set_param_bounds calls the optimiser receives for each parameter the bounds set last (none if never set).",
  "every sequence of calls",
  "histories",
  A(MI,"AbstractMinimizer.set_param_bounds"))
p("The scipy minimizer holds every fixed parameter",
  "Every point feasible for the constraints handed to scipy keeps all fixed parameters at their initial values.",
  "every set of fixed parameters and initial values",
  "late binding in closures only shows for two or more fixed parameters",
  A(MI,"ScipyMinimizer._create_constraints"))
p("A failed scipy minimisation is reported and keeps the previous result",
  "If scipy reports failure, minimize raises RuntimeError and parameter values, errors, covariance and minimum value are those from before the call; on success values and minimum are scipy's.",
  "every optimiser outcome",
  "all outcomes",
  A(MI,"ScipyMinimizer.minimize"))
p("Errors, covariance and correlation of a scipy fit agree",
  "After a scipy minimisation with get_hesse the errors are the roots of the covariance diagonal and the correlation is cov2corr of the covariance; with get_hesse=False they are the previous (initially zero) ones.",
  "every optimiser outcome",
  "all outcomes",
  A(MI,"ScipyMinimizer.minimize"))
p("iminuit success flag",
  "The reported success of an iminuit minimisation is true exactly when the second migrad run is valid, has valid parameters and a covariance.",
  "every optimiser outcome",
  "all outcome combinations",
  A(MI,"IMinuitMinimizer.minimize"))
# ---- fitter ---------------------------------------------------------------------
p("do_fit hands all fixings and bounds to the minimizer",
  "do_fit fixes exactly the parameters registered by set_parameter_fixed plus all nuisance parameters when fix_nui_params is true, and bounds exactly the registered ones (individual bounds override nui_param_limits).",
  "every fitter configuration",
  "all configurations",
  A(FI,"TemplateFitter.do_fit","TemplateFitter.set_parameter_fixed","TemplateFitter.set_parameter_bounds"))
p("Last bounds call wins in the fitter",
  "When set_parameter_bounds is called repeatedly for one parameter, the bounds of the last call are used in the fit.",
  "every sequence of calls, identifying the parameter by name or index",
  "only fails when names and indices are mixed",
  A(FI,"TemplateFitter.set_parameter_bounds","TemplateFitter.do_fit"))
p("fix_nui_params() fixes the nuisance parameters",
  "After TemplateFitter.fix_nui_params() subsequent fits keep the nuisance parameters fixed.",
  "every fitter",
  "configuration flag over histories",
  A(FI,"TemplateFitter.fix_nui_params","TemplateFitter.do_fit"))
p("do_fit updates the templates only on request",
  "do_fit(update_templates=False) and any failing do_fit leave all template parameters unchanged; with update_templates=True the templates carry the fitted values.",
  "every optimiser outcome and configuration",
  "all outcomes",
  A(FI,"TemplateFitter.do_fit"))
p("Profile points and values correspond",
  "profile returns num_points scan points spread evenly over value +- sigma*error including both ends; the k-th profile value belongs to the k-th point, independent of the number of worker processes and their scheduling; failed points are NaN, others the minimum at that fixed value minus the global minimum.",
  "every number of workers, every completion order, every optimiser outcome",
  "scheduling",
  A(FI,"TemplateFitter.profile","TemplateFitter._profile_helper"))
p("The profile scan honours the fixed parameters",
  "In the scan of profile(fix_nui_params=True) the nuisance parameters stay fixed, and parameters fixed or bounded in the fitter stay so.",
  "every fitter configuration",
  "configuration flow into worker tasks",
  A(FI,"TemplateFitter.profile","TemplateFitter._profile_helper"))
p("Hesse approximation",
  "The returned Hesse approximation is the parabola with the fitted minimum at the fitted value and curvature 1/error^2, so it is one half at value +- error after subtracting the minimum.",
  "all fit results with non-zero error",
  "all results",
  A(FI,"TemplateFitter._get_hesse_approx"))
p("Significance is well defined",
  "With an optimiser returning the true constrained minimum, get_significance returns a non-negative number: zero for a negative fitted yield, otherwise sqrt(2 (NLL at best fit with yield fixed to zero - NLL minimum)), never NaN.",
  "all models, data and fitter configurations (iminuit)",
  "needs nesting of the two minimisation problems for all configurations",
  A(FI,"TemplateFitter.get_significance"))
p("Significance leaves the model unchanged",
  "get_significance changes no template parameter.",
  "all models",
  "side effect on shared state",
  A(FI,"TemplateFitter.get_significance")+A(MC,"MultiChannelTemplate.set_yield"))
# ---- toys -----------------------------------------------------------------------
p("A toy study holds exactly the requested experiments",
  "After do_experiments(n) returns, result_parameters and result_uncertainties have n rows, all from this call, in order; if it raises, results are not accessible (RuntimeError).",
  "every model none of whose channels was extended after it was evaluated, every n, every retry pattern, every earlier use of the object",
  "all retry/failure patterns",
  A(TO,"ToyStudy.do_experiments","ToyStudy._experiment","ToyStudy.result_parameters","ToyStudy._check_state"))
p("Retries are bounded and only for RuntimeError",
  "Each experiment is attempted at most max_tries times; RuntimeErrors are retried with a fresh toy data set, any other exception propagates at once; exhausting the tries raises RuntimeError.",
  "every outcome sequence and max_tries",
  "all outcome sequences",
  A(TO,"ToyStudy._experiment"))
p("Toy studies do not change the model parameters",
  "do_experiments leaves all template parameters unchanged (it does replace the channels' data by the last toy).",
  "every outcome sequence",
  "frame condition over all runs",
  A(TO,"ToyStudy.do_experiments","ToyStudy._experiment"))
p("Pulls",
  "get_toy_result_pulls(p) is (fitted - expected)/uncertainty row by row, where expected is the current model yield of process p, and raises RuntimeError before any experiment has been completed.",
  "all toy results",
  "all results",
  A(TO,"ToyStudy.get_toy_result_pulls","ToyStudy.get_toy_results"))
p("Linearity test points",
  "do_linearity_test returns one mean and one spread per scan point, each computed from exactly n_exp experiments generated with the tested yield, all other parameters reset.",
  "every limits, n_points, n_exp and outcome sequence",
  "loop invariants",
  A(TO,"ToyStudy.do_linearity_test"))
# ---- legacy ---------------------------------------------------------------------
p("Legacy likelihood handles empty data bins",
  "The legacy stacked likelihood equals the new one on the same inputs, in particular an empty data bin with expectation nu contributes nu.",
  "all data and expectations",
  "0*inf special case",
  A(NL,"xlogyx","StackedTemplateNegLogLikelihood.__call__"))
p("Legacy projections are never stale",
  "x_projection/y_projection of the legacy 2-D histogram always reflect all fills so far, despite being memoised.",
  "every interleaving of fills and projections",
  "cache coherence over histories",
  A(HL,"Hist2d.fill","Hist2d.x_projection","Hist2d.y_projection"))
p("Legacy histogram scaling",
  "Histogram.scale(c) multiplies counts and errors by c and |c| and commutes with filling: filling weights w then scaling equals filling weights c*w.",
  "all data, weights, c",
  "all inputs",
  A(HL,"Histogram.scale","Histogram.fill"))
p("Legacy stacked template parameter update",
  "StackedTemplate.update_parameters(x, errors) stores yields, nuisance parameters and their errors so that the likelihood's x0 returns x; reset_parameters restores the construction values.",
  "all stacks and parameter vectors",
  "all shapes",
  A(TL,"StackedTemplate.update_parameters","StackedTemplate.reset_parameters","TemplateParameter.reset")+A(NL,"StackedTemplateNegLogLikelihood.x0"))
p("Legacy correlation matrix is readable",
  "Template.corr_mat returns the correlation matrix of the template.",
  "all legacy templates",
  "infinite recursion has no finite witness in a passing test",
  A(TL,"Template.corr_mat"))
# ---- appended ---------------------------------------------------------------------
p("Toy data sets",
  "Channel.generate_toy_dataset draws, for every bin, a Poisson number whose mean is exactly the model expectation of that bin; the data set holds the drawn numbers with errors sqrt(number) in the channel's binning; a negative mean raises ValueError.",
  "every reachable model, every channel, every outcome of the random generator",
  "all models and all outcomes of the generator",
  A(CH,"Channel.generate_toy_dataset"))

p("Models built from physical inputs are well described",
  "After any sequence of calls in which data, weights, variation weights and efficiencies are finite and covariance matrices are positive semi-definite (calls that raise included), every template has a symmetric positive definite covariance matrix and its correlation matrix, inverse correlation matrix and relative errors are exactly those of that matrix; every model whose channels have templates and bins therefore has a finite likelihood description with positive definite correlations.",
  "every finite program of API calls with physical inputs",
  "all call sequences",
  A(AT,"AbstractTemplate._init_errors","AbstractTemplate._add_cov_mat")+A(CH,"Channel.bin_expectation"))

p("Histograms from construction to observation",
  "A Hist1d/Hist2d built by any accepted form of the constructor (number of bins and range, tuple of numbers, explicit edges; with or without a first batch of data) and filled any number of times shows in every bin, as bin_counts, the summed weight of all events given to it so far and, as bin_errors, the root of the summed squared weights; is_empty is True exactly while no batch was given; no fill with usable weights fails.",
  "all constructor forms, all sequences of batches with finite or non-finite values and weights",
  "all histories of fills",
  A("templatefitter/histograms/hist1d.py","Hist1d.__init__","Hist1d.fill")+A("templatefitter/histograms/hist2d.py","Hist2d.__init__","Hist2d.fill")+A(AH,"AbstractHist.bin_errors","AbstractHist.is_empty"))

p("Template and process errors",
  "Template.errors are the relative errors times the current values, bin by bin; MultiChannelTemplate.process_yield_errors has one entry per process, in process order, and that entry is the square root of the summed squared errors of the templates of that process over all bins of all channels that have one.",
  "all models, all parameter values",
  "all numbers of channels, processes and bins",
  A(AT,"AbstractTemplate.errors")+A(MC,"MultiChannelTemplate.process_yield_errors"))

p("Which parameter vectors the likelihood accepts",
  "For a model whose channels all have templates, bins and data, the likelihood evaluates to a number exactly for parameter vectors with at least num_processes + num_nui_params entries; surplus entries are ignored; shorter vectors raise IndexError (a needed yield is missing) or ValueError; a channel without data makes every evaluation raise AttributeError and a channel without templates ZeroDivisionError.",
  "every model reached by any sequence of set-up calls, every parameter vector of any length with any entries",
  "all lengths and all models",
  A(MC,"NegLogLikelihood.__call__","MultiChannelTemplate.generate_per_channel_parameters")+A(CH,"Channel.nll_contribution"))

p("The likelihood as a function of the yields",
  "At fixed nuisance parameters the negative log-likelihood is a convex function of the yields on the set of yields with non-negative expectations; every local minimum is therefore global; a vector of yields where the score (derivative) vanishes is a minimum, and at an interior minimum the score vanishes; without yield constraints, scaling all yields together does not improve the likelihood exactly if the total expectation equals the total number of observed events.",
  "all models with data, all nuisance parameters, all yields",
  "a statement about all points of a continuous domain",
  A(MC,"NegLogLikelihood.__call__")+A(CH,"Channel.nll_contribution"))

p("Objects do not share state through arrays handed in",
  "Histograms and templates are independent of each other and of the caller's numpy arrays: filling one histogram or setting the parameters of one template never changes another object or an array of the caller, and vice versa.",
  "all sequences of constructor calls, fills, setters and in-place writes to the caller's arrays",
  "aliasing shows up only for particular interleavings of calls on different objects",
  A(H1,"Hist1d.from_binned_data","Hist1d.fill")+A(AT,"AbstractTemplate.params","AbstractTemplate.yield_param","AbstractTemplate.nui_params"))

p("Plots show the model",
  "plot_stacked_on draws for every template of the channel its current bin values in its bins, a band centred on their sum whose half height is the quadratic sum of the template errors, and the data with their errors; plot_post_fit_stacked_on draws the same with the band of the propagated (or scaled) fit uncertainties; Template1d.plot_on and Template2d.plot_on show the current value of every bin in that bin, and the projections of a Template2d show row and column sums with errors added in quadrature; plots of channels with two axes or without templates raise.",
  "all channels in every reachable state, all bin edges, all parameter values",
  "all numbers of templates and bins, all edges",
  A(CH,"Channel.plot_stacked_on","Channel.plot_post_fit_stacked_on")+A(T1,"Template1d.plot_on")+A(T2,"Template2d.plot_on","Template2d.plot_x_projection_on","Template2d.plot_y_projection_on"))

p("A legacy template after any history of calls",
  "A template made from a data frame holds in each bin the sum of the weights of the rows falling in it, its covariance matrix is the diagonal of the sums of squared weights (1e-14 for bins without events) plus every matrix added later; its relative errors, inverse correlation matrix, values (yield times normalised fractions, adding up to the yield) and errors follow from these and from its present parameters whatever happens to other objects; reset_parameters restores the yield to the total weight and the values to the histogram; generate_asimov_dataset gives its present values (or the nearest integers) with square-root errors, generate_toy_dataset Poisson numbers with these means; impossible binnings raise ValueError and make nothing.",
  "all data frames with finite weights, all numbers of bins and limits, all histories of calls on any objects with positive-semidefinite matrices added",
  "histories of any length over any number of objects",
  A(TL,"Template","Template.add_covariance_matrix","Template.values","Template.errors","Template.reset_parameters")+A(HL,"Hist1d.fill"))

p("Stacked legacy templates over any history",
  "After any sequence of calls the values of a StackedTemplate are bin by bin the sums of its templates' present values (yield times normalised fraction) and its errors their quadratic sums; generate_asimov_dataset gives these values (or the nearest integers) with square-root errors, generate_toy_dataset Poisson numbers with these means (ValueError for a negative one); update_parameters with vectors of the documented length stores them so that they read back, reset_parameters restores the original ones, and neither touches any other object.",
  "all histories of calls on any number of histograms, templates, stacks and likelihoods, all parameter vectors",
  "histories of any length over any number of objects that refer to each other",
  A(TL,"StackedTemplate","StackedTemplate.values","StackedTemplate.errors","StackedTemplate.generate_asimov_dataset","StackedTemplate.generate_toy_dataset","StackedTemplate.update_parameters","StackedTemplate.reset_parameters"))

p("A legacy likelihood follows its stack and data",
  "A likelihood made by StackedTemplate.create_nll gives at every later time, whatever calls were made since, the value a likelihood made now from the same stack and histogram would give: the Poisson terms of the present histogram contents with the present templates plus the penalty of the nuisance parameters with the templates' present correlation matrices.",
  "all histories before and after the likelihood is made, all parameter vectors",
  "depends on the interleaving of calls on objects that refer to each other",
  A(TL,"StackedTemplate.create_nll")+A(NL,"StackedTemplateNegLogLikelihood","StackedTemplateNegLogLikelihood.__call__"))

p("Legacy parameter names",
  "param_names of a legacy likelihood has one name per entry of x0, in the same order: first '<template>_yield' for each template, then '<template>_nui_<bin>' for each template and bin; names of different parameters differ.",
  "all stacks reached by any history of calls, all template names",
  "all names, all numbers of templates and bins",
  A(NL,"StackedTemplateNegLogLikelihood.param_names","StackedTemplateNegLogLikelihood.x0")+A(TL,"StackedTemplate.template_names"))

p("Legacy Asimov closure",
  "The likelihood of a stack and its own (non-rounded) Asimov data set is, at the stack's own parameters, exactly the penalty of its nuisance parameters (zero if these are zero); at all other parameters with positive expectations it is a number that is at least zero, and zero exactly if all nuisance parameters are zero and the expectations agree: the stack's parameters are the minimum.",
  "all stacks reached by any history, all yields and nuisance parameters",
  "a statement about all points of a continuous domain",
  A(TL,"StackedTemplate.generate_asimov_dataset","StackedTemplate.create_nll")+A(NL,"StackedTemplateNegLogLikelihood.__call__"))

p("Legacy plots show the templates",
  "Template.plot_on and StackedTemplate.plot_on draw the present value of each template in each bin and, over each bin, a bar centred on the total with half height the quadratic sum of the errors.",
  "all templates and stacks in every reachable state",
  "all numbers of templates and bins, all values",
  A(TL,"Template.plot_on","StackedTemplate.plot_on"))

p("Relative errors and entries of a legacy Histogram",
  "bin_rel_errors is error over content in every bin with content and 1e-7 in bins without error; bin_entries counts the values that fell into each bin whatever their weights.",
  "all histories of fills (accepted or refused) and scalings",
  "all histories of fills and scalings",
  A(HL,"Histogram.bin_rel_errors","Histogram.bin_entries","Histogram.fill","Histogram.scale"))

p("The order of the calls does not matter",
  "The likelihood depends on which channels, processes, templates, data and constraints were added, not on the order in which they were added: for two programs that make the same accepted calls in different orders, the likelihood at the same values of the named parameters (each assembled in the order of its own param_names) is the same number, the sum over channels and processes by name.",
  "all models, all rearrangements of the calls that build them, all parameter values with positive expectations",
  "all permutations of calls of programs of any length",
  A(MC,"MultiChannelTemplate.define_channel","MultiChannelTemplate.define_process","MultiChannelTemplate.add_template","MultiChannelTemplate.add_data","NegLogLikelihood.__call__")+A(CH,"Channel.process_indices","Channel.nll_contribution"))

p("The normalisation of a template does not matter",
  "If all event weights behind a template (its histogram, its variation weights; covariance matrices by the square) are multiplied by the same positive number, its relative errors, correlation matrix, inverse correlation matrix, fractions and, at equal parameters, values, errors and the likelihood stay the same; only the nominal yield is multiplied. Required: non-zero statistical errors (every bin, or without systematics every bin with content), since the floor of 1e-7 on the errors is absolute.",
  "all positive factors, all histograms, all histories of variations, covariance matrices and parameter changes, all models",
  "all factors, contents, histories of calls",
  A(AT,"AbstractTemplate.fractions","AbstractTemplate._init_errors","AbstractTemplate._add_cov_mat","AbstractTemplate.values")+A(T1,"Template1d.add_variation","Template1d.add_cov_mat"))

p("Gradient of the likelihood",
  "Wherever all expected bin contents are positive and no template's varied contents sum to zero, the likelihood is infinitely differentiable in all parameters together (yields and nuisance parameters), and its derivative is the textbook one: for a yield, the sum over channels and bins of (1 - data/expectation) times efficiency times fraction, plus the pull of its constraint; for a nuisance parameter, the effect on the shape of its template plus the inverse correlation matrix applied to the nuisance parameters. At a local minimum in the interior all of these vanish.",
  "all models, all data, all parameter values with positive expectations, all directions",
  "derivatives over a continuum of parameter values",
  A(MC,"NegLogLikelihood.__call__")+A(CH,"Channel.nll_contribution"))

p("Scaling with luminosity",
  "Two models with the same templates, without constraints, one with data d and one with c times d (c > 0): at corresponding yields (nu and c nu, same nuisance parameters) the Poisson part of the likelihood is multiplied by c and the penalty of the nuisance parameters unchanged; yields are a best fit to d at given nuisance parameters exactly if c times these yields are a best fit to c d.",
  "all models, all data, all positive factors, all parameters",
  "all factors, data and parameter values",
  A(MC,"NegLogLikelihood.__call__")+A(CH,"Channel.nll_contribution"))

p("The set of best-fit yields",
  "At fixed nuisance parameters, two sets of yields are both best fits exactly if they give the same expectation in each bin with data, the same constrained yields and the same total expectation. So the best fit is unique if no non-trivial change of the yields leaves these unchanged, and otherwise each best fit with positive expectations lies on a segment of best fits.",
  "all models, all data, all nuisance parameters",
  "a statement about all minima over a continuum",
  A(MC,"NegLogLikelihood.__call__")+A(CH,"Channel.nll_contribution"))

p("A best fit exists",
  "At nuisance parameters that keep all template contents non-negative, with positive efficiencies and a template for each process: if the likelihood is a number for some non-negative yields, there are non-negative yields at which it is smallest: the fit problem the Fitter poses to the minimiser (with yields bounded below by zero) has a solution.",
  "all models, all data including empty bins, all such nuisance parameters",
  "existence of a minimum over an unbounded continuum",
  A(MC,"NegLogLikelihood.__call__")+A(CH,"Channel.nll_contribution"))

p("Where the likelihood is a number",
  "For models whose processes all have a template or a constraint, and parameter vectors of the right length: the likelihood is a finite number exactly if all parameters are finite, no template's varied contents sum to zero, and the expectation is positive in each bin with data. There it is the closed formula (Poisson terms, penalties, constraints), also if bins without data have a zero or negative expectation.",
  "all models, all data, all parameter vectors including NaN and infinities",
  "an exact domain over all floating-point vectors",
  A(MC,"NegLogLikelihood.__call__")+A(CH,"Channel.nll_contribution")+A(UT,"xlogyx"))

p("The likelihood is bounded below",
  "For every model with data the likelihood is bounded below over all parameter vectors at which it is a number, so that a minimiser that may use negative yields has something to converge to.",
  "all models, all data, all parameter vectors",
  "an infimum over an unbounded continuum",
  A(MC,"NegLogLikelihood.__call__")+A(CH,"Channel.nll_contribution")+A(UT,"xlogyx"))

p("A fit to Asimov data returns the truth",
  "Take a model with zero nuisance parameters whose efficiencies are the channel shares of its yields, whose constraints agree with the yields, with events expected in every bin and whose yields are identifiable (no other yields give the same expectations). With its own Asimov data set as data, the likelihood is 0 at the present parameters, not smaller anywhere and 0 nowhere else; a fit with a minimiser that finds true constrained minima, with bounds that contain the present parameters, returns exactly these parameters and minimum 0, whatever is fixed.",
  "all such models, all fitter configurations, all minimisers that return true minima, all parameter vectors",
  "all models and configurations; uniqueness of a minimum over a continuum",
  A(FI,"Fitter.do_fit")+A(MC,"MultiChannelTemplate.generate_asimov_dataset","NegLogLikelihood.__call__")+A(MI,"IMinuitMinimizer.minimize"))

p("p-values are probabilities",
  "For a chi2 density integrated exactly, the p-values that pearson_chi2_test, default_chi2_test and (for positive data and expectations) cowan_binned_likelihood_gof return are numbers in (0, 1], equal to 1 exactly if data and expectation agree in every bin, and for fixed degrees of freedom they decrease strictly as the statistic grows.",
  "all positive numbers of degrees of freedom, all data, expectations and errors of the tests' domains",
  "an improper integral for all real arguments",
  A(ST,"pearson_chi2_test","default_chi2_test","cowan_binned_likelihood_gof"))

p("The likelihood is half the goodness-of-fit statistic",
  "For models with data in every bin and positive expectations the likelihood equals half the sum over the channels of cowan_binned_likelihood_gof of data and expectation, plus the penalties of the nuisance parameters and of the constraints: twice the fitted minimum is the likelihood-ratio goodness of fit.",
  "all models, all data without empty bins, all parameters with positive expectations",
  "an identity between two independent pieces of code over all real inputs",
  A(ST,"cowan_binned_likelihood_gof")+A(MC,"NegLogLikelihood.__call__")+A(CH,"Channel.nll_contribution"))

p("Profile values are never below the fitted minimum",
  "With a minimiser that finds true constrained minima no value of a likelihood profile is below the minimum of the fit it starts with: with subtract_min=True no value is negative, and a point at the fitted value of the parameter has the value 0.",
  "all models, fitters, parameters, numbers of points and workers, schedules of the worker pool, fix_nui_params on or off",
  "all models and schedules; relation of minima over a continuum",
  A(FI,"Fitter.profile","Fitter._profile_helper","Fitter.do_fit"))

p("Fitting again from the fitted templates changes nothing",
  "Fit with update_templates=True and a minimiser that finds true constrained minima, then fit again with the same configuration: the likelihood function and the parameter names are those of the first fit, the second fit starts at the stored parameters, and it finds the same minimum value.",
  "all models with data, all fitter configurations, all such minimisers (a different one for each fit)",
  "all models, configurations and minimisers; relation of minima over a continuum",
  A(FI,"Fitter.do_fit")+A(MC,"MultiChannelTemplate.update_parameters","NegLogLikelihood.x0"))

p("Channels without common processes are fitted independently",
  "If the channels fall into two groups such that no process has templates in both, the likelihood is a sum of a function of the parameters of one group (yields of its processes, nuisance parameters of its channels) and a function of the others. The best-fit parameters of a group therefore do not depend on the data of the other group: the group's parameters of a best fit to one data set, combined with the others' of a best fit to data that differ only in the other group, are again a best fit.",
  "all models, all such groupings, all data, all parameters",
  "all groupings and data; minima over a continuum",
  A(MC,"NegLogLikelihood.__call__","MultiChannelTemplate.create_nll")+A(CH,"Channel.nll_contribution"))

p("A template without entries cannot go unnoticed",
  "If all contents of some template are zero, the likelihood of the model is NaN at every parameter vector it accepts, whatever the yield of the process (also 0), and no fit with a minimiser that returns true minima returns a result: the defect cannot produce plausible numbers.",
  "all models with templates and data in every channel, all parameter vectors including NaN and infinities, all fitter configurations",
  "all floating-point vectors and models",
  A(MC,"NegLogLikelihood.__call__")+A(CH,"Channel.nll_contribution")+A(AT,"AbstractTemplate.fractions")+A(FI,"Fitter.do_fit"))

p("The complete fit problem has a solution",
  "With non-negative yields and free nuisance parameters there are parameters at which the likelihood is smallest: the problem do_fit poses to the minimiser has a solution.",
  "all models whose likelihood is a number somewhere, all data including empty bins",
  "existence of a minimum over an unbounded continuum",
  A(FI,"Fitter.do_fit")+A(MC,"NegLogLikelihood.__call__")+A(CH,"Channel.nll_contribution")+A(UT,"xlogyx"))

p("The numerical Hesse matrix",
  "ScipyMinimizer.calculate_hesse_matrix(fcn, x, args) returns the Hesse matrix that numdifftools computes for fcn as it is now at the point x (a numpy.ndarray, as documented), whatever was called before.",
  "all functions, points and arguments; all programs that interleave calls with changes of what the functions compute",
  "all call histories of a memoised method; needs an invariant over the cache",
  A(MI,"ScipyMinimizer.calculate_hesse_matrix"))

p("Geometry and assignments of legacy histograms",
  "A legacy Histogram(nbins, limits) keeps nbins equally wide bins whatever is done to it: bin_width is the width of every bin and bin_mids are their centres; for Hist1d bin_width is the width of the first bin. Assigning bin_counts or bin_errors replaces exactly that attribute (errors read back as absolute values), and a later fill adds to the assigned contents what it would have added to the old ones.",
  "all numbers of bins, limits, histories of fills, scalings and assignments, and assigned values",
  "a unit test sees a few histograms; the claim is about every history and every assigned value",
  A(HL,"Histogram.bin_width","Histogram.bin_mids","Histogram.bin_counts","Histogram.bin_errors","Histogram.fill","AbstractHist.bin_width"))

p("Only yield times efficiency matters",
  "Multiplying all efficiencies of a process by a factor and dividing its yield (and the value and uncertainty of its constraint) by the same factor leaves the likelihood unchanged, in models with any number of channels.",
  "all pairs of models that differ only in the efficiencies, all non-zero factors per process, all constraints, yields and nuisance parameters",
  "all models and real parameters",
  A(MC,"NegLogLikelihood.__call__","MultiChannelTemplate.create_nll")+A(CH,"Channel.nll_contribution","Channel._get_efficiencies_as_array"))

p("The numbering of the bins does not matter",
  "Renumbering the bins of a channel in the same way in all templates, correlation matrices, data and nuisance parameters leaves the likelihood unchanged.",
  "all models, all permutations of the bins of every channel, all yields and nuisance parameters",
  "all permutations and real parameters",
  A(MC,"NegLogLikelihood.__call__")+A(CH,"Channel.nll_contribution")+A(AT,"AbstractTemplate.fractions"))

p("Unused processes do not influence the likelihood",
  "The yield of a process that has a template in no channel and no constraint does not matter: the likelihood returns the same number or raises the same exception whatever stands at its position.",
  "all models, all such processes, all parameter vectors of any length and content, all replaced values including NaN and infinities",
  "all models and floating-point vectors",
  A(MC,"MultiChannelTemplate.define_process","NegLogLikelihood.__call__","MultiChannelTemplate.generate_per_channel_parameters"))

p("Expected significance",
  "If a model describes its data exactly (for instance because they are its Asimov data), get_significance(p) with a minimizer that finds true minima is 0 exactly when the present yield of p is not positive, and otherwise the square root of twice the minimum of the fit without p (never negative or NaN).",
  "all models whose yields are identifiable, both minimizers, all fitter configurations whose bounds contain the present parameters, all processes",
  "all models, data sets and optimisers; a test sees one minimisation",
  A(FI,"TemplateFitter.get_significance")+A(MC,"MultiChannelTemplate.generate_asimov_dataset"))

p("A fit returns the constrained maximum of the likelihood",
  "With a minimizer that finds true minima of the problem it is handed, do_fit returns the best point of the problem the user configured: parameters fixed with set_parameter_fixed or fix_nui_params keep the model's values, all others lie within the bounds set last, the reported minimum is the likelihood at the returned parameters and no allowed point has a smaller one. Hence fixing more parameters never lowers the minimum and the minimum does not depend on the choice of the minimizer.",
  "all models, all histories of fitter calls, fit options and optimisers (scipy: at most one fixed parameter)",
  "all configurations and optimisers",
  A(FI,"TemplateFitter.do_fit","TemplateFitter.set_parameter_fixed","TemplateFitter.set_parameter_bounds")+A(MI,"IMinuitMinimizer.minimize","ScipyMinimizer.minimize"))

p("Fit results do not depend on the order of the calls",
  "If two programs make the same accepted calls in different orders (so channels, processes, templates and hence the positions of all parameters differ) and the fitter is configured by parameter names, then fits of both with a minimizer that finds true minima have the same minimum whenever both are finite, and the values found by the first fit, carried over parameter name by parameter name, are a best allowed point of the second.",
  "all pairs of programs that are reorderings of each other, all configurations by name, fit options, both minimizers (scipy: at most one fixed parameter) and all optimisers",
  "all reorderings, models, configurations and optimisers",
  A(FI,"TemplateFitter.do_fit","TemplateFitter.set_parameter_fixed","TemplateFitter.set_parameter_bounds")+A(MC,"MultiChannelTemplate.define_channel","MultiChannelTemplate.define_process","MultiChannelTemplate.add_template","MultiChannelTemplate.param_names"))

p("A rejected parameter update leaves the model unchanged",
  "update_parameters(x) is accepted exactly if x has at least num_processes + num_nui_params entries (surplus entries are ignored); if it raises, all parameters of all templates are as before.",
  "all models whose channels have templates and bins, all vectors of any length and content",
  "all models and vectors of every length",
  A(MC,"MultiChannelTemplate.update_parameters","MultiChannelTemplate.generate_per_channel_parameters")+A(CH,"Channel.update_parameters")+A(AT,"AbstractTemplate.yield_param","AbstractTemplate.nui_params"))

p("Fit results satisfy the likelihood equations",
  "With a minimizer that finds true minima, at the values returned by do_fit with a finite minimum the partial derivative of the likelihood with respect to every parameter that may still increase (not fixed, below its upper bound) is not negative and with respect to every parameter that may decrease not positive, so it is zero for every free parameter inside its bounds. Without constraints and with every yield free or zero, the fitted model expects exactly as many events as were observed.",
  "all models with real-valued templates and data (bins with observed events may be arbitrary, empty bins allowed), all configurations, fit options, both minimizers (scipy: at most one fixed parameter)",
  "all models, data, configurations and optimisers; a derivative cannot be tested",
  A(FI,"TemplateFitter.do_fit")+A(MC,"NegLogLikelihood.__call__")+A(MI,"IMinuitMinimizer.minimize","ScipyMinimizer.minimize"))

p("Unweighted histogram contents are exact in floating point",
  "With integer weights (in particular without weights) whose absolute values sum to at most 2^53, the histogram computed in IEEE double precision has exactly the contents and squared errors that exact arithmetic gives, after any number of fills, and summing it in any order and grouping gives exactly the total; the limit is sharp: a bin that holds 2^53 events does not count the next one.",
  "all binnings in one and two dimensions, all batches of data and integer weights, all histories of fills, all orders of summation",
  "all data sets, up to 9e15 events; rounding errors depend on every partial sum",
  A(H1,"Hist1d.fill","Hist1d.bin_counts","Hist1d.bin_errors_sq")+A(H2,"Hist2d.fill"))

p("Template fractions and values stay in range in floating point",
  "In floating point, whatever the order in which numpy sums, a template filled with nonnegative counts and nonnegative effective weights has fractions that are NaN or lie in [0, 1], and values that are NaN or lie in [0, yield]: rounding can not push a bin fraction above 1 or a bin content above the yield or below 0.",
  "all arithmetics that round monotonically and keep representable numbers (IEEE double, single, any rounding mode), all templates, nuisance parameters and yields",
  "all floating-point inputs and summation orders",
  A(AT,"bin_fractions","AbstractTemplate.fractions","AbstractTemplate.values"))

p("Floating-point accuracy of fractions and expected events",
  "In double precision the fractions of a template with n bins have a relative error of at most (n + 6) 2^-52 and sum to one within that, and the expected events per bin of a channel with K templates a relative error of at most (n + K + 7) 2^-52, whatever the order of summation in numpy and BLAS and with or without fused multiply-add, as long as nothing leaves the range of normal numbers and no nuisance parameter varies a bin below half its content.",
  "all templates and channels of any size, all nonnegative yields and efficiencies and nuisance parameters in that range, all orders of operations, all floating-point formats with relative rounding error u (2 (n+6) u, 2 (n+K+7) u)",
  "all inputs and all summation orders of the linear algebra library; a test sees one platform",
  A(AT,"bin_fractions","AbstractTemplate.fractions")+A(CH,"Channel._fractions","Channel._expected_evts_per_bin"))

p("Floating-point accuracy of the likelihood",
  "The likelihood contribution of a channel with K templates of n bins, computed in double precision with a log1p accurate to one unit in the last place, differs from the exact value by at most (6n + 2K + 40) 2^-53 times the sum over the bins of (expected + observed + |observed log(expected/observed)|) plus (3Kn + 4) 2^-53 times the sum of the absolute values of the terms of the nuisance penalty, whatever the order of summation and with or without fused multiply-add, as long as nothing leaves the range of normal numbers.",
  "all channels of any size, all observed counts (empty bins included), yields, efficiencies and nuisance parameters in that range, all inverse correlation matrices, all orders of operations, all floating-point formats with relative rounding error u",
  "all inputs and all summation orders of the linear algebra library; the error depends on cancellations no test enumerates",
  A(CH,"Channel.nll_contribution","Channel._gauss_term")+A(UT,"xlogyx"))

p("Floating-point accuracy of the likelihood of the whole model",
  "The value of the cost function for a model with any channels and yield constraints, computed in double precision with a log1p accurate to one unit in the last place and correctly rounded squares, is finite and differs from the exact value by at most the sum of the channels' errors ((6n + 2K + 40) 2^-53 times the size of the Poisson terms, (3Kn + 4) 2^-53 times the size of the terms of the penalty), 14 * 2^-53 times the size of every constraint term (x - v)^2/(2 e^2), and 4 N 2^-53 times the size of everything for adding up the N channels and constraints, as long as nothing leaves the range of normal numbers.",
  "all models built by any sequence of calls before evaluation, any number of channels, processes, bins and constraints, all data, yields and nuisance parameters in that range, all orders of summation inside numpy and BLAS, all floating-point formats with relative rounding error u",
  "all models, inputs and summation orders; an optimizer sees the error as noise that no single test bounds",
  A(MC,"NegLogLikelihood.__call__","MultiChannelTemplate.generate_per_channel_parameters")+A(CH,"Channel.nll_contribution"))

p("Equal-width bin edges in floating point",
  "A histogram with n equal-width bins between two floating-point numbers lo < hi gets, in floating-point arithmetic, n + 1 finite edges; the first is exactly lo and the last exactly hi; every edge is within u(|x| + 7(x - lo)) of the exact position x; if the bins are wider than 30 u max(|lo|, |hi|) (u = 2^-53 in double precision) the edges strictly increase, so fills succeed, every number in [lo, hi] belongs to a bin, lo to the first and hi to the last.",
  "every precision and rounding to nearest meeting the IEEE error bounds, every pair of limits, every number of bins, every event value",
  "the rounding errors depend on the limits and the number of bins; no test covers all of them",
  A(H1,"Hist1d._init_bin_edges")+A(H2,"Hist2d._init_bin_edges"))

p("Weighted histogram contents in floating point",
  "An empty histogram, in one or two dimensions, is filled any number of times with any finite weights of either sign, every operation rounded. In a bin holding N events of weights w, the content differs from the sum of the weights by at most 2 N u times the sum of |w|, the squared error from the sum of w^2 by at most 2 N u times that sum, and the bin error from its square root by at most 2 (N + 1) u times it (u = 2^-53 in double precision), as long as nothing leaves the range of normal numbers.",
  "every histogram with any number of bins, every sequence of fills with any number of events, every weight in that range, every floating-point format with relative rounding error u",
  "all weights and event histories; the error grows with the number of events, which no test exhausts",
  A(H1,"Hist1d.fill")+A(H2,"Hist2d.fill")+A(AH,"AbstractHist.bin_errors"))

p("Second derivatives of the likelihood and fit errors",
  "At every point with positive expectations the cost function is twice differentiable along every straight line in the space of all yields and nuisance parameters; its second derivative is the information sum n (expected'/expected)^2 + eta^T R^-1 eta + sum (delta/e)^2 plus sum (1 - n/expected) expected''. In the yields alone it is never negative. For data equal to the expectation (Asimov) and identifiable yields the matrix of second derivatives is positive definite, and a scipy fit (exact minimization and differentiation) returns its inverse as covariance, with positive errors equal to the roots of its diagonal.",
  "all built models with any channels, templates, bins and constraints, all points with positive expectations, all directions, all data, all fitter configurations",
  "derivatives at all points and in all directions of a parameter space of any dimension",
  A(MC,"NegLogLikelihood.__call__")+A(CH,"Channel.nll_contribution")+A(MI,"ScipyMinimizer.minimize")+A(FI,"TemplateFitter.do_fit"))

p("Parameters held fixed do not contribute to the errors of a scipy fit",
  "A parameter that is held fixed in a fit with the scipy minimizer is reported without an error and does not enlarge the errors of the free parameters. (False: the covariance is the inverse of the second derivatives in all parameters. Proved instead: such fits report the same errors whatever is held fixed; the reported error of a free parameter is never smaller than the one with the fixed parameters held, and strictly larger as soon as it is correlated with a fixed one.)",
  "all models, all configurations of fixed parameters, all positive definite matrices of second derivatives and choices of fixed parameters",
  "all configurations and models; the enlarged error looks plausible in any single fit",
  A(MI,"ScipyMinimizer.minimize","ScipyMinimizer.set_param_fixed")+A(FI,"TemplateFitter.set_parameter_fixed","TemplateFitter.do_fit"))

p("Floating-point accuracy of the chi-square statistics",
  "pearson_chi2_test and default_chi2_test, computed in floating point in any order of summation, return a statistic that is finite, never negative and zero exactly if the data equal the expectation, with a relative error of at most 2(n+3)u (Pearson) or 2(n+4)u (explicit uncertainties) for n bins, one rounding more for the reduced statistic; in double precision (n+3) 2^-52, for expectations between 2^-200 and 2^200 and differences that are zero or between 2^-300 and 2^300 in size.",
  "all numbers of bins, data, positive expectations, uncertainties and degrees of freedom in that range, all orders of summation, all floating-point formats with relative rounding error u",
  "all inputs and summation orders; cancellation in data - expectation could amplify errors",
  A(ST,"pearson_chi2_test","default_chi2_test"))

p("The likelihood-ratio statistic is never negative in floating point",
  "cowan_binned_likelihood_gof, computed in floating point, never returns a negative statistic for positive data and expectations. (False: 11 events in a bin with expectation 11 - 2^-48 give a negative statistic in double precision, whatever accurate logarithm is used. Proved instead: it differs from the exact, non-negative value by at most (8n + 2k + 32)u times the sum over bins of n|log(n/nu)| + n + nu, for a logarithm accurate to k u.)",
  "all numbers of bins, positive data and expectations in range, all accurate logarithms, all orders of summation, all floating-point formats with relative rounding error u",
  "all inputs; the sign of a result that cancels almost completely depends on the last bits",
  A(ST,"cowan_binned_likelihood_gof"))

p("Averages over toy experiments",
  "Let the toy data sets of a model be drawn as Poisson numbers with the requested means. Then the average over toys of the cost function is, at every parameter point, the cost function of the Asimov data set plus one constant that is not negative; it is smallest at the parameters the data are generated with (zero nuisance parameters, centred constraints, identifiable yields) and nowhere else as small; there the slope in any direction averages to the slope of the penalties alone, its variance for independent bins is sum expected'^2/expected, and the second derivative averages to that of the Asimov data set, which is this variance plus the penalty terms.",
  "all built models with any channels, templates, bins and constraints, all present parameters with positive expectations, all points and directions, all probability spaces and Poisson generators",
  "an average over infinitely many random data sets, at all points of a parameter space of any dimension",
  A(MC,"MultiChannelTemplate.generate_toy_dataset","MultiChannelTemplate.generate_asimov_dataset","NegLogLikelihood.__call__")+A(CH,"Channel.generate_toy_dataset","Channel.nll_contribution")+A(TO,"ToyStudy.do_experiments"))

p("Goodness of fit and event numbers of toy data",
  "For toy data sets drawn as independent Poisson numbers with the requested means, pearson_chi2_test against the Asimov data set, and default_chi2_test with the errors of the Asimov data set, return the same statistic; its average over toys is exactly the number of bins and its variance sum (2 + 1/expected). The total number of events of a channel is a Poisson number whose mean is the sum of the yields of its templates.",
  "all reachable models, all channels, yields and nuisance parameters with positive expectations, all probability spaces and Poisson generators",
  "exact averages over infinitely many random data sets",
  A(MC,"MultiChannelTemplate.generate_toy_dataset")+A(CH,"Channel.generate_toy_dataset","Channel.generate_asimov_dataset")+A(ST,"pearson_chi2_test","default_chi2_test"))

p("Fits to toy data are unbiased in the number of events",
  "In a model without constraints, a fit to a toy data set with a minimizer that finds true minima returns parameters at which the model expects exactly as many events as were drawn, as long as each fitted yield is zero or free to move; each row of a toy study does so for the events of its attempt, with the nuisance parameters unchanged. For mutually independent Poisson numbers the fitted number of events is therefore itself Poisson: its average and its variance are the sum of the yields of the generating model. With a single process the average of the fitted yield is exactly the true yield and its variance the true yield divided by the total efficiency.",
  "all built models with any channels, templates and bins, all present parameters with non-negative expectations, all fitter configurations, all probability spaces and Poisson generators, all toy studies",
  "an average over infinitely many random data sets and over the results of a minimization for each of them",
  A(TO,"ToyStudy.do_experiments","ToyStudy.result_parameters")+A(FI,"TemplateFitter.do_fit")+A(MC,"MultiChannelTemplate.generate_toy_dataset","NegLogLikelihood.__call__")+A(CH,"Channel.generate_toy_dataset"))

p("Toy studies are unbiased",
  "The fitted yields in the rows of a toy study scatter around the true yields of the model. (False: an attempt whose fit raises is repeated with a new data set, so data sets for which no best fit exists drop out of the study; for a process that expects half an event every row reports at least one event. Proved instead: every row belongs to an attempt in which at least one event was drawn in a channel of every process with non-negative efficiencies; studies that repeat attempts do return.)",
  "all built models without constraints, all present parameters with non-negative expectations, all generators, all toy studies of any length with any number of attempts, all minimizers that return true minima of finite value or raise",
  "a bias of an average over infinitely many random data sets through the selection of attempts; single studies look plausible",
  A(TO,"ToyStudy.do_experiments","ToyStudy._experiment","ToyStudy.result_parameters")+A(FI,"TemplateFitter.do_fit")+A(CH,"Channel.generate_toy_dataset"))

p("The reported uncertainty of the number of events is the Poisson one",
  "After a fit with the scipy minimizer (at most one parameter held fixed) of a model without constraints, every yield free to move and every bin expected to be populated, the returned covariance gives the total number of accepted events (sum of yield times efficiency over processes and channels) a variance equal to the number of observed events. The covariances of that number with the yields are the fitted yields, those with the nuisance parameters zero. With a single process the reported error of its yield is the square root of the number of observed events divided by its total efficiency, and it is uncorrelated with all nuisance parameters. In fits of toy data the reported variance is the number of drawn events, which on average is the true variance.",
  "all built models without constraints with any channels, templates and bins, all data and fitted parameters with positive expectations, all fitter configurations, exact minimization and differentiation",
  "an identity between the inverse of a matrix of second derivatives, of any dimension, and the data, at minima of arbitrary likelihoods",
  A(FI,"TemplateFitter.do_fit")+A(MI,"ScipyMinimizer.minimize")+A(MC,"NegLogLikelihood.__call__")+A(CH,"Channel.nll_contribution"))

p("Fits to toy data are consistent",
  "A fit that starts at a point with positive expectations a and uses a minimizer that never returns a point worse than its start gives non-negative expectations m for the data n with sum (sqrt m - sqrt a)^2 + 2 (penalties of the result) <= 4 sum (n - a)^2 / a + 2 (penalties of the start). For toy data generated from the model at its present parameters the average squared distance between the roots of fitted and true expectations is hence at most 4 times the number of bins plus twice the penalties of the truth, however many events are expected; the probability that the fitted number of events is off by a given factor falls at least as fast as one over the expected number of events.",
  "all built models with constraints or without, all channels, templates, bins and present parameters with positive expectations, all data, all fitter configurations that admit the start, iminuit and scipy, all minimizers that never make things worse (exact or not), all probability spaces and Poisson generators",
  "a bound on averages over infinitely many random data sets for every model size and every number of events",
  A(TO,"ToyStudy.do_experiments")+A(FI,"TemplateFitter.do_fit")+A(MC,"MultiChannelTemplate.generate_toy_dataset","NegLogLikelihood.__call__")+A(CH,"Channel.generate_toy_dataset","Channel.nll_contribution"))

p("Values read from histograms and templates are snapshots",
  "An array read from hist.bin_counts or template.params keeps the values it had when it was read, so that counts before and after a fill can be compared and saved parameters can be restored. (False: both are the live arrays. The array read from bin_counts shows the present contents of the histogram after any further program; the array from params shows the present parameters as long as the template is given no other array, and handing it back with template.params = saved changes nothing; writing into either changes the object without any check. Proved instead: a copy that the program does not use otherwise survives every program, and assigning it restores exactly the old parameters and changes no other object; the array read before template.reset() does so too when no other object shares it.)",
  "all programs of histogram and template calls, array allocations, writes into arrays and hand-overs of any length, all reachable sharing of arrays between histograms, templates and the user",
  "needs every program between reading and using the array; tests compare values right after reading them",
  A(AH,"AbstractHist.bin_counts")+A(AT,"AbstractTemplate.params","AbstractTemplate.yield_param","AbstractTemplate.nui_params","AbstractTemplate.reset")+A(H1,"Hist1d.fill"))

p("Fitted yields converge to the true yields",
  "Toy data sets generated from a model at its present parameters are fitted from there with a minimizer that never returns a point worse than its start. The probability that the fitted expectations, summed over the bins, are off by a given fraction of all events is at most a constant over the expected number of events. With the nuisance parameters fixed, iminuit, and process shapes that are linearly independent, the same holds for every yield: when all yields are L times as large, the probability that some fitted yield is off by more than the fraction eps is at most K / L, with K independent of L.",
  "all built models with constraints or without, all channels, processes, templates, bins and present parameters with positive expectations, all luminosities, all fitter configurations that admit the start, all minimizers that never make things worse, all probability spaces and Poisson generators",
  "a statement about the limit of infinitely many events and the distribution of the results of fits over random data sets",
  A(TO,"ToyStudy.do_experiments")+A(FI,"TemplateFitter.do_fit")+A(MI,"IMinuitMinimizer.minimize")+A(MC,"MultiChannelTemplate.generate_toy_dataset","NegLogLikelihood.__call__"))

p("The reported errors have the right coverage",
  "Toy data sets of independent Poisson numbers are generated from a model without constraints and fitted with scipy (exact minimization and differentiation). The interval fitted total number of events +- t times its reported standard deviation covers the true total with exactly the probability that a Poisson number N of the same mean is within t sqrt(N) of its mean, up to the probability that the fit fails or ends at a boundary. For every t and eps there is a number of events, the same for all models and fit configurations, from which on this probability is the one of [-t, t] under the standard normal distribution (68.3 % for t = 1) up to eps. In a model with one process the same holds for the yield and its reported error.",
  "all built models without constraints with any channels, templates and bins, all scipy fitter configurations with at most one fixed parameter, all numbers of standard deviations, all probability spaces and Poisson generators, all sets of failing fits",
  "a probability over infinitely many random data sets and its limit for many events; a toy study can only sample it for one model",
  A(TO,"ToyStudy.do_experiments")+A(FI,"TemplateFitter.do_fit")+A(MI,"ScipyMinimizer.minimize")+A(CH,"Channel.generate_toy_dataset"))

p("Pulls of toy studies follow a standard normal distribution",
  "After do_experiments, get_toy_result_pulls(process) returns one pull per experiment, and if the fits are exact (true minima, exact HESSE errors) the pulls of data generated from the model follow a standard normal distribution. (False: in a model with one process of M expected accepted events the pull of a toy with N >= 1 events is exactly (N - M) / sqrt N, and for M >= 4 the mean of the pulls is negative. Proved instead: this formula for every study, the mean pull is at most 2 / sqrt M in absolute value, and for every b the probability of a pull of at most b converges to the one of the standard normal distribution as M grows, uniformly in the model.)",
  "all built models with one process, without constraints, with events expected in all bins, all channels, templates and bins, all numbers of experiments and retries, all exact minimizers, all probability spaces and Poisson generators",
  "the distribution of a random quantity and its limit for many events; a toy study can only sample it, and the bias is far below its statistical precision",
  A(TO,"ToyStudy.get_toy_result_pulls","ToyStudy.do_experiments")+A(FI,"TemplateFitter.do_fit")+A(MI,"IMinuitMinimizer.minimize")+A(CH,"Channel.generate_toy_dataset"))

p("Nuisance parameters, constraints and priors change the reported errors in the right direction",
  "Two fits with iminuit (exact minima, exact HESSE errors) that differ only in what is held fixed and end at the same parameters: the fit that holds more parameters fixed, for example all nuisance parameters, reports for no remaining parameter a larger error. A Gaussian constraint on one more yield makes no reported error larger, and the error of the constrained yield is at most the width of the constraint. The error of every free nuisance parameter is positive and at most the prior standard deviation one. For fits of a model to its own Asimov data set the fits do end at the same parameters. (Scipy reports the same errors whatever is held fixed, see the property on fixed parameters.)",
  "all built models with any channels, processes, templates, bins and correlated nuisance parameters, all yields, data and existing constraints, all fitter configurations of fixed parameters and bounds, all exact minimizers",
  "compares two fits over all models and configurations; tests look at one model and do not vary what is fixed",
  A(MI,"IMinuitMinimizer.minimize","AbstractMinimizer.set_param_fixed")+A(FI,"TemplateFitter.do_fit","TemplateFitter.set_parameter_fixed")+A(MC,"MultiChannelTemplate.add_gaussian_constraint_on_yield","NegLogLikelihood.__call__")+A(CH,"Channel._gauss_term"))

p("With L times as much data the errors of the yields grow by a factor between sqrt L and L",
  "A model without constraints is fitted with iminuit (exact minima, exact HESSE errors) to Asimov data generated at some yields, and in a second session to Asimov data generated at L times these yields, L >= 1, with the same parameters held fixed. Both fits return the yields set before; the error of every free yield is at least sqrt L and at most L times as large, exactly sqrt L times if all nuisance parameters are held fixed, and no error of a nuisance parameter grows. So relative errors never grow with the luminosity, improve at most like 1 / sqrt L, and do improve like 1 / sqrt L without systematic uncertainties. The same for any two data sets of which the second is L times the first, if the fits end at corresponding parameters.",
  "all built models without constraints with any channels, processes, templates, bins and correlated nuisance parameters, all yields, all factors L >= 1, all fitter configurations without bounds, all exact minimizers",
  "compares two fits over all models, yields and luminosities",
  A(MI,"IMinuitMinimizer.minimize")+A(FI,"TemplateFitter.do_fit")+A(MC,"MultiChannelTemplate.update_parameters","MultiChannelTemplate.generate_asimov_dataset","NegLogLikelihood.__call__")+A(CH,"Channel.update_parameters","Channel.generate_asimov_dataset"))

p("Adding channels to a fit never makes the errors larger",
  "Two models with the same processes, the second with all channels of the first and further ones (a combined fit), both with the data expected for the same yields: iminuit fits (exact minima, exact HESSE errors) of both return these yields, also from other start values, and no parameter of the first model has a larger error in the combined fit than in the fit of the first model alone, whatever nuisance parameters, constraints and correlations the further channels bring, as long as the combined fit does not free a parameter that was fixed. Without constraints the combined fit is at least as precise for every yield as the weighted average of the results of the separate fits of the two sets of channels.",
  "all pairs of built models of which one has further channels, with any channels, processes, templates, bins, efficiencies, constraints and correlated nuisance parameters, all yields, all start values, all fixed parameters, all exact minimizers",
  "compares fits of two different models for all yields; tests look at one model",
  A(MI,"IMinuitMinimizer.minimize")+A(FI,"TemplateFitter.do_fit")+A(MC,"MultiChannelTemplate.define_channel","MultiChannelTemplate.generate_per_channel_parameters","NegLogLikelihood.__call__")+A(CH,"Channel.nll_contribution"))

p("Merging bins never makes the errors of the yields smaller",
  "A model and the same model with coarser binning (the contents of a bin of the coarse templates are the sums of the contents of the bins merged into it), the data of both expected for the same yields: iminuit fits (exact minima, exact HESSE errors) with all nuisance parameters held fixed return the true yields in both cases, and no yield has a smaller error in the coarse model. If only bins are merged in which all processes have the same composition (the bins differ by a common factor of all templates), the errors are equal.",
  "all pairs of built models of which one has merged bins, with any channels, processes, templates, bins, efficiencies and constraints, any grouping of the bins, all yields, all start values, all fixed parameters, all exact minimizers",
  "compares fits of two different models for all yields and groupings; tests look at one binning",
  A(MI,"IMinuitMinimizer.minimize")+A(FI,"TemplateFitter.do_fit")+A(MC,"MultiChannelTemplate.add_template","NegLogLikelihood.__call__")+A(CH,"Channel.nll_contribution","Channel._fractions"))

p("Filling coarse bins is filling fine bins and merging them",
  "Two one-dimensional histograms, the edges of the second being those of the first without some inner ones, are made by any accepted constructor call and filled with the same batches of events and weights. Then every bin content and squared error of the coarse histogram is the sum of those of the fine bins merged into that bin, so merging bins after filling and filling with coarse bins are interchangeable. The same holds for two-dimensional histograms and cells, and for the values and (without empty bins) the squared errors of templates made from the two histograms, at equal yields.",
  "all pairs of edges of which one is a subset of the other with the same ends, given in any accepted form, all batches of events and weights, also NaN, infinite and out-of-range values",
  "relates two histograms for all edges and all events",
  A(H1,"Hist1d.fill","Hist1d.__init__","Hist1d._init_bin_edges")+A(H2,"Hist2d.fill","Hist2d.__init__")+A(AH,"AbstractHist.bin_counts","AbstractHist.bin_errors_sq")+A(AT,"AbstractTemplate.values","AbstractTemplate.errors"))

if __name__ == "__main__":
    out = pathlib.Path(__file__).resolve().parent.parent / "properties.jsonl"
    out.write_text("".join(json.dumps(x) + "\n" for x in P))
    print(len(P))

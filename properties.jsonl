{"id": "C01", "title": "1-D fill puts every event in its bin", "statement": "After Hist1d.fill(data, weights) every bin count has grown by exactly the sum of the weights of the events lying in that bin: bin i is [e_i, e_{i+1}), the last bin also owns its right edge (and the points scipy's rounding identifies with it); every other event changes nothing.", "quantifier": "every strictly increasing edge array with at least one bin, every data and weight array of equal length (entries finite, infinite or NaN), every prior histogram content", "why_tests_cant": "tests compare a handful of data sets with numpy.histogram; bin assignment at and around every edge for every edge array is a universal statement", "anchors": ["templatefitter/histograms/hist1d.py: Hist1d.fill", "templatefitter/histograms/hist1d.py: Hist1d._init_bin_edges", "templatefitter/histograms/abstract_hist.py: AbstractHist.bin_counts"]}
{"id": "C02", "title": "Squared bin errors accumulate the squared weights", "statement": "After Hist1d.fill(data, weights) every squared bin error has grown by exactly the sum of the squared weights of the events in that bin; without weights it grows by the same amount as the count, so a histogram only filled unweighted has bin_errors_sq == bin_counts.", "quantifier": "every edge array, data, weights and any sequence of fills", "why_tests_cant": "the equality must survive any sequence of fills, not one fill of one sample", "anchors": ["templatefitter/histograms/hist1d.py: Hist1d.fill", "templatefitter/histograms/abstract_hist.py: AbstractHist.bin_errors_sq"]}
{"id": "C03", "title": "Filling is additive and order independent", "statement": "Filling a histogram with two batches one after the other gives the same counts and squared errors as one fill with the concatenated batch, and permuting the (event, weight) pairs of a batch changes nothing.", "quantifier": "all batches, all permutations, 1-D and 2-D histograms, non-finite weights included", "why_tests_cant": "a test can try a few splits and permutations only", "anchors": ["templatefitter/histograms/hist1d.py: Hist1d.fill", "templatefitter/histograms/hist2d.py: Hist2d.fill"]}
{"id": "C04", "title": "Total content equals the accepted weight", "statement": "After any sequence of fills of a fresh Hist1d, the sum of the bin counts equals the sum of the weights of all events that were inside the histogram range; events outside are dropped, never moved.", "quantifier": "every sequence of fills of every length", "why_tests_cant": "an invariant over arbitrary fill histories", "anchors": ["templatefitter/histograms/hist1d.py: Hist1d.__init__", "templatefitter/histograms/hist1d.py: Hist1d.fill"]}
{"id": "C05", "title": "A rejected fill leaves the histogram unchanged", "statement": "If fill raises (data and weights of different lengths, edges not strictly increasing, unusable weight container, ...), counts, squared errors and is_empty are as before the call.", "quantifier": "every data/weight argument that is rejected (weights given as None, list, array or tuple), every prior state", "why_tests_cant": "exception safety must hold on every rejecting input", "anchors": ["templatefitter/histograms/hist1d.py: Hist1d.fill", "templatefitter/histograms/hist2d.py: Hist2d.fill"]}
{"id": "C06", "title": "Equal-width binning", "statement": "Hist1d(bins=n, range=(lo, hi)) has n+1 edges, first edge lo, last edge hi, edges strictly increasing, all widths (hi-lo)/n, bin_mids the midpoint of each bin, widths summing to hi-lo.", "quantifier": "all n >= 1 and all lo < hi", "why_tests_cant": "holds for all n, lo, hi; tests use one triple", "anchors": ["templatefitter/histograms/hist1d.py: Hist1d._init_bin_edges", "templatefitter/histograms/hist1d.py: Hist1d.bin_mids", "templatefitter/histograms/hist1d.py: Hist1d.bin_widths", "templatefitter/histograms/hist_utils.py: bin_mids", "templatefitter/histograms/hist_utils.py: bin_widths", "templatefitter/histograms/hist_utils.py: get_bin_range"]}
{"id": "C07", "title": "from_binned_data round trip", "statement": "from_binned_data(counts, edges, errors) reports the given counts and edges, bin_errors equal to |errors|, range (first edge, last edge), and is_empty False; with errors omitted the squared errors equal the counts when these are non-negative and are NaN in every bin with a negative count.", "quantifier": "all counts, edges (ndarray) and errors", "why_tests_cant": "includes negative and non-finite entries nobody enumerates in tests", "anchors": ["templatefitter/histograms/hist1d.py: Hist1d.from_binned_data", "templatefitter/histograms/abstract_hist.py: AbstractHist.bin_errors"]}
{"id": "C08", "title": "2-D fill puts every event in its cell", "statement": "After Hist2d.fill((x, y), weights) cell (i, j) has grown by exactly the weights of the events with x in x-bin i and y in y-bin j (same edge convention per axis) and the squared error by their squared weights.", "quantifier": "every pair of edge arrays, every data set of equal length, every prior content", "why_tests_cant": "cell assignment is a universal statement over two axes", "anchors": ["templatefitter/histograms/hist2d.py: Hist2d.fill", "templatefitter/histograms/hist2d.py: Hist2d._init_bin_edges"]}
{"id": "C09", "title": "Projections preserve content", "statement": "x_projection()/y_projection() of a 2-D histogram have the sum over the other axis as counts, the root of the summed squared errors as errors, and the same total content; projecting a filled fresh Hist2d gives the same counts as filling a Hist1d with the x (y) values of the events whose y (x) is in range.", "quantifier": "every 2-D histogram and every data set", "why_tests_cant": "commutation of fill and projection for all data", "anchors": ["templatefitter/histograms/hist2d.py: Hist2d.x_projection", "templatefitter/histograms/hist2d.py: Hist2d.y_projection"]}
{"id": "C10", "title": "cov2corr yields a correlation matrix", "statement": "For a symmetric covariance matrix with positive variances cov2corr returns C_ij/sqrt(C_ii C_jj): symmetric, unit diagonal, and entries within [-1, 1] whenever the input is positive semi-definite; rows of vanishing variance (all zero) give zero rows, not NaN.", "quantifier": "all matrices of every size", "why_tests_cant": "quantifies over all matrices and sizes", "anchors": ["templatefitter/utility.py: cov2corr"]}
{"id": "C11", "title": "corr2cov inverts cov2corr given the variance vector", "statement": "corr2cov(cov2corr(C), variances of C) returns C, where corr2cov's second argument is documented as the variance vector.", "quantifier": "all symmetric C with positive variances", "why_tests_cant": "round trip over all matrices; one identity-like test matrix passes by accident", "anchors": ["templatefitter/utility.py: corr2cov", "templatefitter/utility.py: cov2corr"]}
{"id": "C12", "title": "Parameter identifiers resolve uniquely", "statement": "id_to_index(names, s) for a string s present in names returns its first position; for an int i it returns i exactly when 0 <= i < len(names); every other identifier (unknown name, negative or too large int, other types) raises ValueError.", "quantifier": "all name lists and identifiers", "why_tests_cant": "all identifiers, including negative indices that Python lists would accept", "anchors": ["templatefitter/utility.py: id_to_index", "templatefitter/minimizer.py: Parameters.param_id_to_index"]}
{"id": "C13", "title": "xlogyx computes x*log(y/x) with defined limits", "statement": "xlogyx(x, y) equals x*log(y/x) for all x >= 1e-100 and y > 0 (both code branches agree), is 0 for NaN x and for x < 1e-100, is -inf for y == 0 < x, and NaN for y < 0 < x.", "quantifier": "all floats x, y including NaN and infinities", "why_tests_cant": "branch agreement over all real pairs and the special-value table", "anchors": ["templatefitter/utility.py: xlogyx"]}
{"id": "C14", "title": "Systematic covariance is a valid covariance", "statement": "get_systematic_cov_mat(nom, up, down) is symmetric, positive semi-definite, of rank at most one, and its diagonal is ((|up-nom|+|down-nom|)/2)^2 bin by bin.", "quantifier": "all bin count triples of any length", "why_tests_cant": "positive semi-definiteness is a statement over all vectors", "anchors": ["templatefitter/utility.py: get_systematic_cov_mat"]}
{"id": "C15", "title": "Up/down variations are interchangeable", "statement": "Exchanging the up and down variation does not change the systematic covariance matrix.", "quantifier": "all up/down variations", "why_tests_cant": "fails only when some bin has up == down with a common shift, which random tests never hit", "anchors": ["templatefitter/utility.py: get_systematic_cov_mat"]}
{"id": "C16", "title": "array_split_into partitions its input", "statement": "The arrays yielded by array_split_into(xs, sizes) concatenate to a prefix of xs (to all of xs when a None size occurs or the sizes add up to len(xs)); piece k has size k's length unless the input is exhausted; nothing after a None size is yielded.", "quantifier": "all inputs and size lists", "why_tests_cant": "arbitrary lengths and size lists", "anchors": ["templatefitter/utility.py: array_split_into"]}
{"id": "C17", "title": "Pearson chi2 is a distance", "statement": "For positive expectations pearson_chi2_test's statistic is sum (n-nu)^2/nu, is non-negative, zero exactly when data equal expectation, and the second value is statistic/dof; the p-value is evaluated at that statistic and dof.", "quantifier": "all data/expectation vectors", "why_tests_cant": "non-negativity and definiteness are universal", "anchors": ["templatefitter/stats.py: pearson_chi2_test", "templatefitter/stats.py: default_chi2_test"]}
{"id": "C18", "title": "Likelihood-ratio goodness of fit is a distance", "statement": "For positive data and expectations cowan_binned_likelihood_gof's statistic is 2*sum(n log(n/nu) + nu - n), non-negative and zero exactly when data equal expectation; it is finite for every data set, including empty bins.", "quantifier": "all data/expectation vectors including empty bins", "why_tests_cant": "convexity argument over all positive vectors; empty bins", "anchors": ["templatefitter/stats.py: cowan_binned_likelihood_gof"]}
{"id": "C19", "title": "Template fractions are normalised", "statement": "template.fractions(theta) sums to one whenever the varied total sum_j n_j(1+theta_j eps_j) is not zero; entries are n_i(1+theta_i eps_i) over that total, non-negative when all varied bins are, and at theta=0 equal n_i/sum n.", "quantifier": "every template, every nuisance vector", "why_tests_cant": "all templates and all nuisance values", "anchors": ["templatefitter/templates/abstract_template.py: AbstractTemplate.fractions", "templatefitter/templates/abstract_template.py: bin_fractions"]}
{"id": "C20", "title": "Template values add up to the yield", "statement": "The sum over bins of template.values equals template.yield_param for every nuisance setting with non-zero varied total: nuisance parameters move events between bins but never change the yield.", "quantifier": "every reachable template state", "why_tests_cant": "must hold for all reachable parameter settings", "anchors": ["templatefitter/templates/abstract_template.py: AbstractTemplate.values"]}
{"id": "C21", "title": "A fresh template reproduces its histogram", "statement": "For a template built from a histogram with non-zero total, values equals the histogram bin counts, yield_param the total, nuisance parameters are zero, and errors are zero in empty bins and the statistical bin error in every non-empty bin; a non-empty bin without statistical error (cancelling weights cannot give this, only zero-error inputs) gets the floor 1e-7 that keeps the covariance positive.", "quantifier": "every histogram (1-D and 2-D)", "why_tests_cant": "all histograms", "anchors": ["templatefitter/templates/abstract_template.py: AbstractTemplate._init_params", "templatefitter/templates/abstract_template.py: AbstractTemplate._init_errors", "templatefitter/templates/abstract_template.py: AbstractTemplate.values", "templatefitter/templates/abstract_template.py: AbstractTemplate.errors", "templatefitter/templates/template1d.py: Template1d.__init__", "templatefitter/templates/template2d.py: Template2d.__init__"]}
{"id": "C22", "title": "An empty template is harmless", "statement": "A template built from an empty histogram has values, errors and fractions equal to zero (as the test-suite expects).", "quantifier": "every empty histogram", "why_tests_cant": "0/0 behaviour", "anchors": ["templatefitter/templates/abstract_template.py: bin_fractions", "templatefitter/templates/abstract_template.py: AbstractTemplate.values"]}
{"id": "C23", "title": "Covariance bookkeeping", "statement": "After any sequence of successful add_variation/add_cov_mat calls the total covariance matrix equals the sum of all matrices listed in cov_mats, the first being the statistical one; the relative errors are sqrt of its diagonal over the bin count (1e-7 in empty bins).", "quantifier": "every sequence of successful calls on every template", "why_tests_cant": "histories of arbitrary length", "anchors": ["templatefitter/templates/abstract_template.py: AbstractTemplate._add_cov_mat", "templatefitter/templates/abstract_template.py: AbstractTemplate.cov_mat", "templatefitter/templates/abstract_template.py: AbstractTemplate.cov_mats", "templatefitter/templates/template1d.py: Template1d.add_variation", "templatefitter/templates/template1d.py: Template1d.add_cov_mat"]}
{"id": "C24", "title": "Correlation matrices stay invertible", "statement": "Starting from any template, any sequence of Template1d.add_variation calls (and add_cov_mat calls with positive semi-definite symmetric matrices) never fails in the matrix inversion; the total covariance stays symmetric positive definite, the correlation matrix has unit diagonal and inv_corr_mat is its two-sided inverse.", "quantifier": "every template and every sequence of systematic variations", "why_tests_cant": "positive definiteness for all sequences", "anchors": ["templatefitter/templates/abstract_template.py: AbstractTemplate._init_errors", "templatefitter/templates/abstract_template.py: AbstractTemplate._add_cov_mat", "templatefitter/utility.py: cov2corr", "templatefitter/utility.py: get_systematic_cov_mat"]}
{"id": "C25", "title": "A rejected covariance matrix leaves the template unchanged", "statement": "If add_cov_mat raises, the template's covariance matrix, list of covariance matrices, correlation matrices and errors are as before the call.", "quantifier": "every template and every rejected matrix (wrong shape, singular correlation)", "why_tests_cant": "exception safety on every failing input", "anchors": ["templatefitter/templates/template1d.py: Template1d.add_cov_mat", "templatefitter/templates/abstract_template.py: AbstractTemplate._add_cov_mat"]}
{"id": "C26", "title": "Parameter setters validate and isolate", "statement": "Setting yield_param changes exactly the yield, setting nui_params exactly the nuisance parameters, both readable back; setters raise RuntimeError (and change nothing) on wrong shapes or non-numeric yields (an empty array as yield raises ValueError and also changes nothing); the number of parameters of a template never changes.", "quantifier": "every sequence of setter calls", "why_tests_cant": "every sequence and every ill-shaped input", "anchors": ["templatefitter/templates/abstract_template.py: AbstractTemplate.params", "templatefitter/templates/abstract_template.py: AbstractTemplate.yield_param", "templatefitter/templates/abstract_template.py: AbstractTemplate.nui_params"]}
{"id": "C27", "title": "reset restores the initial parameters", "statement": "After any sequence of parameter updates template.reset() (channel.reset(), MultiChannelTemplate.reset_parameters()) restores yield = histogram total and zero nuisance parameters, hence the original values, and keeps covariance information.", "quantifier": "every history of parameter updates and systematic additions", "why_tests_cant": "arbitrary histories", "anchors": ["templatefitter/templates/abstract_template.py: AbstractTemplate.reset", "templatefitter/templates/channel.py: Channel.reset", "templatefitter/templates/multi_channel_template.py: MultiChannelTemplate.reset_parameters"]}
{"id": "C28", "title": "A template is a snapshot of its histogram", "statement": "Filling a histogram after a template was built from it does not change anything observable about the template, also not after reset().", "quantifier": "every later fill", "why_tests_cant": "needs reasoning about shared object references over histories", "anchors": ["templatefitter/templates/abstract_template.py: AbstractTemplate._init_params", "templatefitter/templates/template1d.py: Template1d.__init__"]}
{"id": "C29", "title": "Systematic variations use the template's binning", "statement": "Template1d.add_variation(data, up, down) adds the covariance of the up/down histograms of data in exactly the template's own bins.", "quantifier": "every template binning and data set", "why_tests_cant": "differs only for non-uniform binning", "anchors": ["templatefitter/templates/template1d.py: Template1d.add_variation"]}
{"id": "C30", "title": "2-D templates accept systematic variations", "statement": "Template2d.add_variation(data, up, down) adds the systematic covariance of the variation to the template.", "quantifier": "all 2-D templates and variations", "why_tests_cant": "interface contract for all inputs", "anchors": ["templatefitter/templates/template2d.py: Template2d.add_variation", "templatefitter/templates/abstract_template.py: AbstractTemplate._add_cov_mat"]}
{"id": "C31", "title": "Channels accept exactly compatible templates", "statement": "Channel.add_template succeeds iff the template has the channel's bins and range, the process is new to the channel and the template class matches the earlier ones; then the process is appended last with its efficiency. Otherwise RuntimeError and the channel is unchanged.", "quantifier": "every channel state, process, template", "why_tests_cant": "decision logic over all states", "anchors": ["templatefitter/templates/channel.py: Channel.add_template", "templatefitter/templates/channel.py: Channel._add_template", "templatefitter/templates/channel.py: Channel._check_template"]}
{"id": "C32", "title": "Channel templates share their binning", "statement": "All templates of a channel (and its data histogram) have identical bin edges.", "quantifier": "every reachable channel", "why_tests_cant": "invariant over histories, fails only for non-uniform binning", "anchors": ["templatefitter/templates/channel.py: Channel._check_template", "templatefitter/templates/channel.py: Channel._check_hist"]}
{"id": "C33", "title": "Channel bookkeeping is consistent", "statement": "In every reachable channel the process list has no duplicates, num_templates = number of templates = number of efficiencies in the same order, num_nui_params = num_templates*num_bins, and every template has num_bins bins.", "quantifier": "every history of add_template/add_data calls, failing ones included", "why_tests_cant": "invariant over arbitrary histories", "anchors": ["templatefitter/templates/channel.py: Channel.num_templates", "templatefitter/templates/channel.py: Channel.num_nui_params", "templatefitter/templates/channel.py: Channel.processes", "templatefitter/templates/channel.py: Channel.efficiencies"]}
{"id": "C34", "title": "Expected events formula", "statement": "The expected events of a channel in bin i for yields nu and nuisance theta are sum_k nu_k eff_k f_k,i(theta_k), where theta_k is the k-th block of num_bins nuisance parameters; summed over bins they give sum_k nu_k eff_k.", "quantifier": "all channels, yields, nuisance parameters", "why_tests_cant": "all channels and parameter vectors", "anchors": ["templatefitter/templates/channel.py: Channel._expected_evts_per_bin", "templatefitter/templates/channel.py: Channel._fractions", "templatefitter/templates/channel.py: Channel.bin_counts_from_param_values"]}
{"id": "C35", "title": "Gauss term is the sum of template penalties", "statement": "The nuisance penalty of a channel is 1/2 sum_k theta_k^T R_k^-1 theta_k over its templates (R_k correlation matrices): no cross terms between templates; it is non-negative and zero exactly at theta = 0.", "quantifier": "all channels and nuisance vectors", "why_tests_cant": "block structure for every number and size of blocks", "anchors": ["templatefitter/templates/channel.py: Channel._gauss_term", "templatefitter/templates/channel.py: Channel._create_block_diag_inv_corr_mat"]}
{"id": "C36", "title": "Channel likelihood formula and bound", "statement": "nll_contribution equals sum_i (nu_i - n_i - n_i log(nu_i/n_i)) (with n_i = 0 contributing nu_i) plus the Gauss term, is non-negative when all expectations are positive, and zero exactly when the expectation matches the data and the nuisance parameters vanish.", "quantifier": "all channels, data, parameters with positive expectations and data bins that are 0 or at least 1e-100", "why_tests_cant": "convexity for all inputs", "anchors": ["templatefitter/templates/channel.py: Channel.nll_contribution", "templatefitter/utility.py: xlogyx"]}
{"id": "C37", "title": "Impossible data are infinitely penalised", "statement": "If some bin holds data but the expectation there is exactly zero, the likelihood value is +inf; for a negative expectation in a bin with data it is NaN rather than a silently wrong number.", "quantifier": "all channels and parameters", "why_tests_cant": "special-value behaviour for all inputs", "anchors": ["templatefitter/templates/channel.py: Channel.nll_contribution", "templatefitter/utility.py: xlogyx"]}
{"id": "C38", "title": "Generated data sets are accepted by their channel", "statement": "The Asimov and toy data sets generated by a channel are accepted by add_data of that same channel.", "quantifier": "every channel with at least one template", "why_tests_cant": "closure property for every reachable channel, including ranges given as lists", "anchors": ["templatefitter/templates/channel.py: Channel.generate_asimov_dataset", "templatefitter/templates/channel.py: Channel.generate_toy_dataset", "templatefitter/templates/channel.py: Channel.add_data", "templatefitter/templates/channel.py: Channel._check_hist"]}
{"id": "C39", "title": "Asimov data equal the model", "statement": "generate_asimov_dataset() has bin counts equal to the sum of the current template values (rounded half-to-even when integer_values) and bin errors sqrt of the counts; it reads but never changes the templates.", "quantifier": "every channel state", "why_tests_cant": "all states", "anchors": ["templatefitter/templates/channel.py: Channel.generate_asimov_dataset", "templatefitter/templates/multi_channel_template.py: MultiChannelTemplate.generate_asimov_dataset"]}
{"id": "C40", "title": "Likelihood evaluation is history independent (caches are transparent)", "statement": "The value of the likelihood at x depends only on the current templates, efficiencies, data and constraints - not on earlier evaluations: memoised efficiencies, process indices and inverse correlation matrices never serve stale values.", "quantifier": "every history of evaluations, template additions and systematic additions", "why_tests_cant": "needs all interleavings of evaluations and updates", "anchors": ["templatefitter/templates/channel.py: Channel.process_indices", "templatefitter/templates/channel.py: Channel._get_efficiencies_as_array", "templatefitter/templates/channel.py: Channel._create_block_diag_inv_corr_mat"]}
{"id": "C41", "title": "Channel-level parameter splitting matches the fit parameters", "statement": "bin_counts_from_param_values and propagate_parameter_uncertainties interpret a fit result exactly as the likelihood does.", "quantifier": "all multi-channel models and fit results", "why_tests_cant": "depends on process order and number of channels", "anchors": ["templatefitter/templates/channel.py: Channel.split_parameter_array", "templatefitter/templates/channel.py: Channel.bin_counts_from_param_values", "templatefitter/templates/channel.py: Channel.propagate_parameter_uncertainties"]}
{"id": "C42", "title": "Propagated covariance is a covariance", "statement": "The bin-by-bin covariance J C J^T is symmetric positive semi-definite whenever the parameter covariance C is, so the post-fit bin uncertainties are real and non-negative.", "quantifier": "all Jacobians and covariance matrices of any size", "why_tests_cant": "all matrices", "anchors": ["templatefitter/templates/channel.py: Channel.propagate_parameter_uncertainties", "templatefitter/templates/channel.py: Channel.get_post_fit_bin_uncertainty"]}
{"id": "C43", "title": "Processes are defined once", "statement": "define_process appends a new name and raises RuntimeError on an existing one leaving the list unchanged; in every reachable model process names are unique and keep their definition order (indices never change).", "quantifier": "every history of API calls", "why_tests_cant": "invariant over histories", "anchors": ["templatefitter/templates/multi_channel_template.py: MultiChannelTemplate.define_process", "templatefitter/templates/multi_channel_template.py: MultiChannelTemplate.process_to_index", "templatefitter/templates/multi_channel_template.py: MultiChannelTemplate.processes"]}
{"id": "C44", "title": "Templates only for defined channels and processes", "statement": "add_template raises RuntimeError for undefined channel or process and changes nothing; in every reachable model each channel's processes are a duplicate-free subset of the model's processes.", "quantifier": "every history of API calls", "why_tests_cant": "invariant over histories", "anchors": ["templatefitter/templates/multi_channel_template.py: MultiChannelTemplate.add_template"]}
{"id": "C45", "title": "Redefining a channel starts it afresh", "statement": "define_channel with an existing name replaces that channel by one without templates and data, keeps its position and does not touch other channels; with a new name it appends.", "quantifier": "every model", "why_tests_cant": "all models", "anchors": ["templatefitter/templates/multi_channel_template.py: MultiChannelTemplate.define_channel"]}
{"id": "C46", "title": "add_data is all-or-nothing", "statement": "If MultiChannelTemplate.add_data raises because one of the given histograms does not fit, no channel's data have changed.", "quantifier": "all keyword argument orders", "why_tests_cant": "partial update on the k-th argument", "anchors": ["templatefitter/templates/multi_channel_template.py: MultiChannelTemplate.add_data"]}
{"id": "C47", "title": "Parameter vector partition", "statement": "generate_per_channel_parameters splits a parameter vector of length num_processes + num_nui_params so that each channel receives the yields of exactly its processes in its own template order, and the channels' nuisance blocks are consecutive, disjoint and cover the nuisance part completely.", "quantifier": "every model with at least one channel that was none of whose channels was extended after it was evaluated (C40 covers the others) and every parameter vector of the right length", "why_tests_cant": "all models and vectors", "anchors": ["templatefitter/templates/multi_channel_template.py: MultiChannelTemplate.generate_per_channel_parameters", "templatefitter/templates/channel.py: Channel.process_indices"]}
{"id": "C48", "title": "update_parameters writes what it was given", "statement": "After update_parameters(x) every template carries its nuisance block of x and yield x_process*efficiency; reading nui_params returns the nuisance part of x.", "quantifier": "every model none of whose channels was extended after it was evaluated in which every channel has a template and no template object is used twice, every x of the right length", "why_tests_cant": "all models and vectors", "anchors": ["templatefitter/templates/multi_channel_template.py: MultiChannelTemplate.update_parameters", "templatefitter/templates/multi_channel_template.py: MultiChannelTemplate.nui_params", "templatefitter/templates/channel.py: Channel.update_parameters"]}
{"id": "C49", "title": "Fit parameters round-trip through the model", "statement": "After update_parameters(x), the starting values x0 of the likelihood equal x, so that a refit starts at the previous optimum.", "quantifier": "all models", "why_tests_cant": "depends on efficiencies over all channels", "anchors": ["templatefitter/templates/multi_channel_template.py: NegLogLikelihood.x0", "templatefitter/templates/multi_channel_template.py: MultiChannelTemplate.update_parameters", "templatefitter/templates/multi_channel_template.py: MultiChannelTemplate.process_yields"]}
{"id": "C50", "title": "set_yield/get_yield", "statement": "set_yield(p, v) makes get_yield(p) return v and leaves every other process' yield unchanged; unknown processes raise RuntimeError and change nothing.", "quantifier": "all models, processes and values", "why_tests_cant": "depends on the efficiencies and sharing of template objects", "anchors": ["templatefitter/templates/multi_channel_template.py: MultiChannelTemplate.set_yield", "templatefitter/templates/multi_channel_template.py: MultiChannelTemplate.get_yield"]}
{"id": "C51", "title": "x0 and param_names are aligned with the parameter vector", "statement": "x0 and param_names have length num_processes + num_nui_params and position k of the names describes position k of the vector: yields in process order, then for each channel, template and bin in order.", "quantifier": "every reachable model", "why_tests_cant": "index arithmetic for all shapes", "anchors": ["templatefitter/templates/multi_channel_template.py: NegLogLikelihood.x0", "templatefitter/templates/multi_channel_template.py: NegLogLikelihood.param_names"]}
{"id": "C52", "title": "Parameter names are unique", "statement": "The likelihood's param_names contain no duplicates, so that a name identifies one parameter.", "quantifier": "every reachable model", "why_tests_cant": "collisions only for particular names with underscores", "anchors": ["templatefitter/templates/multi_channel_template.py: NegLogLikelihood.param_names"]}
{"id": "C53", "title": "Gaussian yield constraints", "statement": "Each constrained process adds (x_p - value)^2/(2 error^2) to the likelihood exactly once, using the last value and error given; undefined processes raise RuntimeError and change nothing.", "quantifier": "every sequence of add_gaussian_constraint_on_yield calls", "why_tests_cant": "repeated calls on one process", "anchors": ["templatefitter/templates/multi_channel_template.py: MultiChannelTemplate.add_gaussian_constraint_on_yield", "templatefitter/templates/multi_channel_template.py: NegLogLikelihood.__call__"]}
{"id": "C54", "title": "Total likelihood is additive over channels", "statement": "NegLogLikelihood(x) is the sum over channels of their contribution at (their yields, their nuisance block) plus the constraint terms, and is non-negative for positive expectations.", "quantifier": "all models set up before their first evaluation (C40 covers the others) and all parameter vectors", "why_tests_cant": "all models", "anchors": ["templatefitter/templates/multi_channel_template.py: NegLogLikelihood.__call__"]}
{"id": "C55", "title": "Asimov closure", "statement": "For a model whose efficiencies are the channel shares of each process' yield, the likelihood on its own Asimov data is zero at x0 and no parameter vector with positive expectations gives a smaller value: the fit closes.", "quantifier": "all models with consistent efficiencies, set up before their first evaluation", "why_tests_cant": "global minimality over all parameter vectors", "anchors": ["templatefitter/templates/multi_channel_template.py: MultiChannelTemplate.generate_asimov_dataset", "templatefitter/templates/multi_channel_template.py: NegLogLikelihood.__call__", "templatefitter/templates/multi_channel_template.py: NegLogLikelihood.x0"]}
{"id": "C56", "title": "Evaluating the likelihood changes nothing observable", "statement": "Calling the likelihood, x0 or param_names changes no template parameter, no data, no efficiency and no constraint.", "quantifier": "every model and argument, failing evaluations included", "why_tests_cant": "frame condition for all inputs", "anchors": ["templatefitter/templates/multi_channel_template.py: NegLogLikelihood.__call__", "templatefitter/templates/channel.py: Channel.nll_contribution"]}
{"id": "C57", "title": "Parameters container consistency", "statement": "Parameters always holds as many values and errors as names: assigning a wrong length raises ValueError and keeps the old array; lookups by name and by index agree.", "quantifier": "every sequence of assignments", "why_tests_cant": "histories", "anchors": ["templatefitter/minimizer.py: Parameters.values", "templatefitter/minimizer.py: Parameters.errors", "templatefitter/minimizer.py: Parameters.__getitem__", "templatefitter/minimizer.py: Parameters.get_param_value", "templatefitter/minimizer.py: Parameters.get_param_error"]}
{"id": "C58", "title": "Fixing and releasing parameters", "statement": "After any sequence of set_param_fixed/release_params calls exactly the parameters fixed since the last release are passed as fixed to the optimiser; an unknown identifier raises ValueError and changes nothing.", "quantifier": "every sequence of calls, both minimizers", "why_tests_cant": "histories", "anchors": ["templatefitter/minimizer.py: IMinuitMinimizer.set_param_fixed", "templatefitter/minimizer.py: IMinuitMinimizer.release_params", "templatefitter/minimizer.py: ScipyMinimizer.set_param_fixed", "templatefitter/minimizer.py: ScipyMinimizer.release_params"]}
{"id": "C59", "title": "Bounds: last setting wins", "statement": "After any sequence of set_param_bounds calls the optimiser receives for each parameter the bounds set last (none if never set).", "quantifier": "every sequence of calls", "why_tests_cant": "histories", "anchors": ["templatefitter/minimizer.py: AbstractMinimizer.set_param_bounds"]}
{"id": "C60", "title": "The scipy minimizer holds every fixed parameter", "statement": "Every point feasible for the constraints handed to scipy keeps all fixed parameters at their initial values.", "quantifier": "every set of fixed parameters and initial values", "why_tests_cant": "late binding in closures only shows for two or more fixed parameters", "anchors": ["templatefitter/minimizer.py: ScipyMinimizer._create_constraints"]}
{"id": "C61", "title": "A failed scipy minimisation is reported and keeps the previous result", "statement": "If scipy reports failure, minimize raises RuntimeError and parameter values, errors, covariance and minimum value are those from before the call; on success values and minimum are scipy's.", "quantifier": "every optimiser outcome", "why_tests_cant": "all outcomes", "anchors": ["templatefitter/minimizer.py: ScipyMinimizer.minimize"]}
{"id": "C62", "title": "Errors, covariance and correlation of a scipy fit agree", "statement": "After a scipy minimisation with get_hesse the errors are the roots of the covariance diagonal and the correlation is cov2corr of the covariance; with get_hesse=False they are the previous (initially zero) ones.", "quantifier": "every optimiser outcome", "why_tests_cant": "all outcomes", "anchors": ["templatefitter/minimizer.py: ScipyMinimizer.minimize"]}
{"id": "C63", "title": "iminuit success flag", "statement": "The reported success of an iminuit minimisation is true exactly when the second migrad run is valid, has valid parameters and a covariance.", "quantifier": "every optimiser outcome", "why_tests_cant": "all outcome combinations", "anchors": ["templatefitter/minimizer.py: IMinuitMinimizer.minimize"]}
{"id": "C64", "title": "do_fit hands all fixings and bounds to the minimizer", "statement": "do_fit fixes exactly the parameters registered by set_parameter_fixed plus all nuisance parameters when fix_nui_params is true, and bounds exactly the registered ones (individual bounds override nui_param_limits).", "quantifier": "every fitter configuration", "why_tests_cant": "all configurations", "anchors": ["templatefitter/fitter.py: TemplateFitter.do_fit", "templatefitter/fitter.py: TemplateFitter.set_parameter_fixed", "templatefitter/fitter.py: TemplateFitter.set_parameter_bounds"]}
{"id": "C65", "title": "Last bounds call wins in the fitter", "statement": "When set_parameter_bounds is called repeatedly for one parameter, the bounds of the last call are used in the fit.", "quantifier": "every sequence of calls, identifying the parameter by name or index", "why_tests_cant": "only fails when names and indices are mixed", "anchors": ["templatefitter/fitter.py: TemplateFitter.set_parameter_bounds", "templatefitter/fitter.py: TemplateFitter.do_fit"]}
{"id": "C66", "title": "fix_nui_params() fixes the nuisance parameters", "statement": "After TemplateFitter.fix_nui_params() subsequent fits keep the nuisance parameters fixed.", "quantifier": "every fitter", "why_tests_cant": "configuration flag over histories", "anchors": ["templatefitter/fitter.py: TemplateFitter.fix_nui_params", "templatefitter/fitter.py: TemplateFitter.do_fit"]}
{"id": "C67", "title": "do_fit updates the templates only on request", "statement": "do_fit(update_templates=False) and any failing do_fit leave all template parameters unchanged; with update_templates=True the templates carry the fitted values.", "quantifier": "every optimiser outcome and configuration", "why_tests_cant": "all outcomes", "anchors": ["templatefitter/fitter.py: TemplateFitter.do_fit"]}
{"id": "C68", "title": "Profile points and values correspond", "statement": "profile returns num_points scan points spread evenly over value +- sigma*error including both ends; the k-th profile value belongs to the k-th point, independent of the number of worker processes and their scheduling; failed points are NaN, others the minimum at that fixed value minus the global minimum.", "quantifier": "every number of workers, every completion order, every optimiser outcome", "why_tests_cant": "scheduling", "anchors": ["templatefitter/fitter.py: TemplateFitter.profile", "templatefitter/fitter.py: TemplateFitter._profile_helper"]}
{"id": "C69", "title": "The profile scan honours the fixed parameters", "statement": "In the scan of profile(fix_nui_params=True) the nuisance parameters stay fixed, and parameters fixed or bounded in the fitter stay so.", "quantifier": "every fitter configuration", "why_tests_cant": "configuration flow into worker tasks", "anchors": ["templatefitter/fitter.py: TemplateFitter.profile", "templatefitter/fitter.py: TemplateFitter._profile_helper"]}
{"id": "C70", "title": "Hesse approximation", "statement": "The returned Hesse approximation is the parabola with the fitted minimum at the fitted value and curvature 1/error^2, so it is one half at value +- error after subtracting the minimum.", "quantifier": "all fit results with non-zero error", "why_tests_cant": "all results", "anchors": ["templatefitter/fitter.py: TemplateFitter._get_hesse_approx"]}
{"id": "C71", "title": "Significance is well defined", "statement": "With an optimiser returning the true constrained minimum, get_significance returns a non-negative number: zero for a negative fitted yield, otherwise sqrt(2 (NLL at best fit with yield fixed to zero - NLL minimum)), never NaN.", "quantifier": "all models, data and fitter configurations (iminuit)", "why_tests_cant": "needs nesting of the two minimisation problems for all configurations", "anchors": ["templatefitter/fitter.py: TemplateFitter.get_significance"]}
{"id": "C72", "title": "Significance leaves the model unchanged", "statement": "get_significance changes no template parameter.", "quantifier": "all models", "why_tests_cant": "side effect on shared state", "anchors": ["templatefitter/fitter.py: TemplateFitter.get_significance", "templatefitter/templates/multi_channel_template.py: MultiChannelTemplate.set_yield"]}
{"id": "C73", "title": "A toy study holds exactly the requested experiments", "statement": "After do_experiments(n) returns, result_parameters and result_uncertainties have n rows, all from this call, in order; if it raises, results are not accessible (RuntimeError).", "quantifier": "every model none of whose channels was extended after it was evaluated, every n, every retry pattern, every earlier use of the object", "why_tests_cant": "all retry/failure patterns", "anchors": ["templatefitter/toy_study.py: ToyStudy.do_experiments", "templatefitter/toy_study.py: ToyStudy._experiment", "templatefitter/toy_study.py: ToyStudy.result_parameters", "templatefitter/toy_study.py: ToyStudy._check_state"]}
{"id": "C74", "title": "Retries are bounded and only for RuntimeError", "statement": "Each experiment is attempted at most max_tries times; RuntimeErrors are retried with a fresh toy data set, any other exception propagates at once; exhausting the tries raises RuntimeError.", "quantifier": "every outcome sequence and max_tries", "why_tests_cant": "all outcome sequences", "anchors": ["templatefitter/toy_study.py: ToyStudy._experiment"]}
{"id": "C75", "title": "Toy studies do not change the model parameters", "statement": "do_experiments leaves all template parameters unchanged (it does replace the channels' data by the last toy).", "quantifier": "every outcome sequence", "why_tests_cant": "frame condition over all runs", "anchors": ["templatefitter/toy_study.py: ToyStudy.do_experiments", "templatefitter/toy_study.py: ToyStudy._experiment"]}
{"id": "C76", "title": "Pulls", "statement": "get_toy_result_pulls(p) is (fitted - expected)/uncertainty row by row, where expected is the current model yield of process p, and raises RuntimeError before any experiment has been completed.", "quantifier": "all toy results", "why_tests_cant": "all results", "anchors": ["templatefitter/toy_study.py: ToyStudy.get_toy_result_pulls", "templatefitter/toy_study.py: ToyStudy.get_toy_results"]}
{"id": "C77", "title": "Linearity test points", "statement": "do_linearity_test returns one mean and one spread per scan point, each computed from exactly n_exp experiments generated with the tested yield, all other parameters reset.", "quantifier": "every limits, n_points, n_exp and outcome sequence", "why_tests_cant": "loop invariants", "anchors": ["templatefitter/toy_study.py: ToyStudy.do_linearity_test"]}
{"id": "C78", "title": "Legacy likelihood handles empty data bins", "statement": "The legacy stacked likelihood equals the new one on the same inputs, in particular an empty data bin with expectation nu contributes nu.", "quantifier": "all data and expectations", "why_tests_cant": "0*inf special case", "anchors": ["templatefitter/nll.py: xlogyx", "templatefitter/nll.py: StackedTemplateNegLogLikelihood.__call__"]}
{"id": "C79", "title": "Legacy projections are never stale", "statement": "x_projection/y_projection of the legacy 2-D histogram always reflect all fills so far, despite being memoised.", "quantifier": "every interleaving of fills and projections", "why_tests_cant": "cache coherence over histories", "anchors": ["templatefitter/histogram_legacy.py: Hist2d.fill", "templatefitter/histogram_legacy.py: Hist2d.x_projection", "templatefitter/histogram_legacy.py: Hist2d.y_projection"]}
{"id": "C80", "title": "Legacy histogram scaling", "statement": "Histogram.scale(c) multiplies counts and errors by c and |c| and commutes with filling: filling weights w then scaling equals filling weights c*w.", "quantifier": "all data, weights, c", "why_tests_cant": "all inputs", "anchors": ["templatefitter/histogram_legacy.py: Histogram.scale", "templatefitter/histogram_legacy.py: Histogram.fill"]}
{"id": "C81", "title": "Legacy stacked template parameter update", "statement": "StackedTemplate.update_parameters(x, errors) stores yields, nuisance parameters and their errors so that the likelihood's x0 returns x; reset_parameters restores the construction values.", "quantifier": "all stacks and parameter vectors", "why_tests_cant": "all shapes", "anchors": ["templatefitter/templates_legacy.py: StackedTemplate.update_parameters", "templatefitter/templates_legacy.py: StackedTemplate.reset_parameters", "templatefitter/templates_legacy.py: TemplateParameter.reset", "templatefitter/nll.py: StackedTemplateNegLogLikelihood.x0"]}
{"id": "C82", "title": "Legacy correlation matrix is readable", "statement": "Template.corr_mat returns the correlation matrix of the template.", "quantifier": "all legacy templates", "why_tests_cant": "infinite recursion has no finite witness in a passing test", "anchors": ["templatefitter/templates_legacy.py: Template.corr_mat"]}
{"id": "C83", "title": "Toy data sets", "statement": "Channel.generate_toy_dataset draws, for every bin, a Poisson number whose mean is exactly the model expectation of that bin; the data set holds the drawn numbers with errors sqrt(number) in the channel's binning; a negative mean raises ValueError.", "quantifier": "every reachable model, every channel, every outcome of the random generator", "why_tests_cant": "all models and all outcomes of the generator", "anchors": ["templatefitter/templates/channel.py: Channel.generate_toy_dataset"]}
{"id": "C84", "title": "Models built from physical inputs are well described", "statement": "After any sequence of calls in which data, weights, variation weights and efficiencies are finite and covariance matrices are positive semi-definite (calls that raise included), every template has a symmetric positive definite covariance matrix and its correlation matrix, inverse correlation matrix and relative errors are exactly those of that matrix; every model whose channels have templates and bins therefore has a finite likelihood description with positive definite correlations.", "quantifier": "every finite program of API calls with physical inputs", "why_tests_cant": "all call sequences", "anchors": ["templatefitter/templates/abstract_template.py: AbstractTemplate._init_errors", "templatefitter/templates/abstract_template.py: AbstractTemplate._add_cov_mat", "templatefitter/templates/channel.py: Channel.bin_expectation"]}
{"id": "C85", "title": "Histograms from construction to observation", "statement": "A Hist1d/Hist2d built by any accepted form of the constructor (number of bins and range, tuple of numbers, explicit edges; with or without a first batch of data) and filled any number of times shows in every bin, as bin_counts, the summed weight of all events given to it so far and, as bin_errors, the root of the summed squared weights; is_empty is True exactly while no batch was given; no fill with usable weights fails.", "quantifier": "all constructor forms, all sequences of batches with finite or non-finite values and weights", "why_tests_cant": "all histories of fills", "anchors": ["templatefitter/histograms/hist1d.py: Hist1d.__init__", "templatefitter/histograms/hist1d.py: Hist1d.fill", "templatefitter/histograms/hist2d.py: Hist2d.__init__", "templatefitter/histograms/hist2d.py: Hist2d.fill", "templatefitter/histograms/abstract_hist.py: AbstractHist.bin_errors", "templatefitter/histograms/abstract_hist.py: AbstractHist.is_empty"]}
{"id": "C86", "title": "Template and process errors", "statement": "Template.errors are the relative errors times the current values, bin by bin; MultiChannelTemplate.process_yield_errors has one entry per process, in process order, and that entry is the square root of the summed squared errors of the templates of that process over all bins of all channels that have one.", "quantifier": "all models, all parameter values", "why_tests_cant": "all numbers of channels, processes and bins", "anchors": ["templatefitter/templates/abstract_template.py: AbstractTemplate.errors", "templatefitter/templates/multi_channel_template.py: MultiChannelTemplate.process_yield_errors"]}
{"id": "C87", "title": "Which parameter vectors the likelihood accepts", "statement": "For a model whose channels all have templates, bins and data, the likelihood evaluates to a number exactly for parameter vectors with at least num_processes + num_nui_params entries; surplus entries are ignored; shorter vectors raise IndexError (a needed yield is missing) or ValueError; a channel without data makes every evaluation raise AttributeError and a channel without templates ZeroDivisionError.", "quantifier": "every model reached by any sequence of set-up calls, every parameter vector of any length with any entries", "why_tests_cant": "all lengths and all models", "anchors": ["templatefitter/templates/multi_channel_template.py: NegLogLikelihood.__call__", "templatefitter/templates/multi_channel_template.py: MultiChannelTemplate.generate_per_channel_parameters", "templatefitter/templates/channel.py: Channel.nll_contribution"]}
{"id": "C88", "title": "The likelihood as a function of the yields", "statement": "At fixed nuisance parameters the negative log-likelihood is a convex function of the yields on the set of yields with non-negative expectations; every local minimum is therefore global; a vector of yields where the score (derivative) vanishes is a minimum, and at an interior minimum the score vanishes; without yield constraints, scaling all yields together does not improve the likelihood exactly if the total expectation equals the total number of observed events.", "quantifier": "all models with data, all nuisance parameters, all yields", "why_tests_cant": "a statement about all points of a continuous domain", "anchors": ["templatefitter/templates/multi_channel_template.py: NegLogLikelihood.__call__", "templatefitter/templates/channel.py: Channel.nll_contribution"]}
{"id": "C89", "title": "Objects do not share state through arrays handed in", "statement": "Histograms and templates are independent of each other and of the caller's numpy arrays: filling one histogram or setting the parameters of one template never changes another object or an array of the caller, and vice versa.", "quantifier": "all sequences of constructor calls, fills, setters and in-place writes to the caller's arrays", "why_tests_cant": "aliasing shows up only for particular interleavings of calls on different objects", "anchors": ["templatefitter/histograms/hist1d.py: Hist1d.from_binned_data", "templatefitter/histograms/hist1d.py: Hist1d.fill", "templatefitter/templates/abstract_template.py: AbstractTemplate.params", "templatefitter/templates/abstract_template.py: AbstractTemplate.yield_param", "templatefitter/templates/abstract_template.py: AbstractTemplate.nui_params"]}
{"id": "C90", "title": "Plots show the model", "statement": "plot_stacked_on draws for every template of the channel its current bin values in its bins, a band centred on their sum whose half height is the quadratic sum of the template errors, and the data with their errors; plot_post_fit_stacked_on draws the same with the band of the propagated (or scaled) fit uncertainties; Template1d.plot_on and Template2d.plot_on show the current value of every bin in that bin, and the projections of a Template2d show row and column sums with errors added in quadrature; plots of channels with two axes or without templates raise.", "quantifier": "all channels in every reachable state, all bin edges, all parameter values", "why_tests_cant": "all numbers of templates and bins, all edges", "anchors": ["templatefitter/templates/channel.py: Channel.plot_stacked_on", "templatefitter/templates/channel.py: Channel.plot_post_fit_stacked_on", "templatefitter/templates/template1d.py: Template1d.plot_on", "templatefitter/templates/template2d.py: Template2d.plot_on", "templatefitter/templates/template2d.py: Template2d.plot_x_projection_on", "templatefitter/templates/template2d.py: Template2d.plot_y_projection_on"]}
{"id": "C91", "title": "A legacy template after any history of calls", "statement": "A template made from a data frame holds in each bin the sum of the weights of the rows falling in it, its covariance matrix is the diagonal of the sums of squared weights (1e-14 for bins without events) plus every matrix added later; its relative errors, inverse correlation matrix, values (yield times normalised fractions, adding up to the yield) and errors follow from these and from its present parameters whatever happens to other objects; reset_parameters restores the yield to the total weight and the values to the histogram; generate_asimov_dataset gives its present values (or the nearest integers) with square-root errors, generate_toy_dataset Poisson numbers with these means; impossible binnings raise ValueError and make nothing.", "quantifier": "all data frames with finite weights, all numbers of bins and limits, all histories of calls on any objects with positive-semidefinite matrices added", "why_tests_cant": "histories of any length over any number of objects", "anchors": ["templatefitter/templates_legacy.py: Template", "templatefitter/templates_legacy.py: Template.add_covariance_matrix", "templatefitter/templates_legacy.py: Template.values", "templatefitter/templates_legacy.py: Template.errors", "templatefitter/templates_legacy.py: Template.reset_parameters", "templatefitter/histogram_legacy.py: Hist1d.fill"]}
{"id": "C92", "title": "Stacked legacy templates over any history", "statement": "After any sequence of calls the values of a StackedTemplate are bin by bin the sums of its templates' present values (yield times normalised fraction) and its errors their quadratic sums; generate_asimov_dataset gives these values (or the nearest integers) with square-root errors, generate_toy_dataset Poisson numbers with these means (ValueError for a negative one); update_parameters with vectors of the documented length stores them so that they read back, reset_parameters restores the original ones, and neither touches any other object.", "quantifier": "all histories of calls on any number of histograms, templates, stacks and likelihoods, all parameter vectors", "why_tests_cant": "histories of any length over any number of objects that refer to each other", "anchors": ["templatefitter/templates_legacy.py: StackedTemplate", "templatefitter/templates_legacy.py: StackedTemplate.values", "templatefitter/templates_legacy.py: StackedTemplate.errors", "templatefitter/templates_legacy.py: StackedTemplate.generate_asimov_dataset", "templatefitter/templates_legacy.py: StackedTemplate.generate_toy_dataset", "templatefitter/templates_legacy.py: StackedTemplate.update_parameters", "templatefitter/templates_legacy.py: StackedTemplate.reset_parameters"]}
{"id": "C93", "title": "A legacy likelihood follows its stack and data", "statement": "A likelihood made by StackedTemplate.create_nll gives at every later time, whatever calls were made since, the value a likelihood made now from the same stack and histogram would give: the Poisson terms of the present histogram contents with the present templates plus the penalty of the nuisance parameters with the templates' present correlation matrices.", "quantifier": "all histories before and after the likelihood is made, all parameter vectors", "why_tests_cant": "depends on the interleaving of calls on objects that refer to each other", "anchors": ["templatefitter/templates_legacy.py: StackedTemplate.create_nll", "templatefitter/nll.py: StackedTemplateNegLogLikelihood", "templatefitter/nll.py: StackedTemplateNegLogLikelihood.__call__"]}
{"id": "C94", "title": "Legacy parameter names", "statement": "param_names of a legacy likelihood has one name per entry of x0, in the same order: first '<template>_yield' for each template, then '<template>_nui_<bin>' for each template and bin; names of different parameters differ.", "quantifier": "all stacks reached by any history of calls, all template names", "why_tests_cant": "all names, all numbers of templates and bins", "anchors": ["templatefitter/nll.py: StackedTemplateNegLogLikelihood.param_names", "templatefitter/nll.py: StackedTemplateNegLogLikelihood.x0", "templatefitter/templates_legacy.py: StackedTemplate.template_names"]}
{"id": "C95", "title": "Legacy Asimov closure", "statement": "The likelihood of a stack and its own (non-rounded) Asimov data set is, at the stack's own parameters, exactly the penalty of its nuisance parameters (zero if these are zero); at all other parameters with positive expectations it is a number that is at least zero, and zero exactly if all nuisance parameters are zero and the expectations agree: the stack's parameters are the minimum.", "quantifier": "all stacks reached by any history, all yields and nuisance parameters", "why_tests_cant": "a statement about all points of a continuous domain", "anchors": ["templatefitter/templates_legacy.py: StackedTemplate.generate_asimov_dataset", "templatefitter/templates_legacy.py: StackedTemplate.create_nll", "templatefitter/nll.py: StackedTemplateNegLogLikelihood.__call__"]}
{"id": "C96", "title": "Legacy plots show the templates", "statement": "Template.plot_on and StackedTemplate.plot_on draw the present value of each template in each bin and, over each bin, a bar centred on the total with half height the quadratic sum of the errors.", "quantifier": "all templates and stacks in every reachable state", "why_tests_cant": "all numbers of templates and bins, all values", "anchors": ["templatefitter/templates_legacy.py: Template.plot_on", "templatefitter/templates_legacy.py: StackedTemplate.plot_on"]}
{"id": "C97", "title": "Relative errors and entries of a legacy Histogram", "statement": "bin_rel_errors is error over content in every bin with content and 1e-7 in bins without error; bin_entries counts the values that fell into each bin whatever their weights.", "quantifier": "all histories of fills (accepted or refused) and scalings", "why_tests_cant": "all histories of fills and scalings", "anchors": ["templatefitter/histogram_legacy.py: Histogram.bin_rel_errors", "templatefitter/histogram_legacy.py: Histogram.bin_entries", "templatefitter/histogram_legacy.py: Histogram.fill", "templatefitter/histogram_legacy.py: Histogram.scale"]}
{"id": "C98", "title": "The order of the calls does not matter", "statement": "The likelihood depends on which channels, processes, templates, data and constraints were added, not on the order in which they were added: for two programs that make the same accepted calls in different orders, the likelihood at the same values of the named parameters (each assembled in the order of its own param_names) is the same number, the sum over channels and processes by name.", "quantifier": "all models, all rearrangements of the calls that build them, all parameter values with positive expectations", "why_tests_cant": "all permutations of calls of programs of any length", "anchors": ["templatefitter/templates/multi_channel_template.py: MultiChannelTemplate.define_channel", "templatefitter/templates/multi_channel_template.py: MultiChannelTemplate.define_process", "templatefitter/templates/multi_channel_template.py: MultiChannelTemplate.add_template", "templatefitter/templates/multi_channel_template.py: MultiChannelTemplate.add_data", "templatefitter/templates/multi_channel_template.py: NegLogLikelihood.__call__", "templatefitter/templates/channel.py: Channel.process_indices", "templatefitter/templates/channel.py: Channel.nll_contribution"]}
{"id": "C99", "title": "The normalisation of a template does not matter", "statement": "If all event weights behind a template (its histogram, its variation weights; covariance matrices by the square) are multiplied by the same positive number, its relative errors, correlation matrix, inverse correlation matrix, fractions and, at equal parameters, values, errors and the likelihood stay the same; only the nominal yield is multiplied. Required: non-zero statistical errors (every bin, or without systematics every bin with content), since the floor of 1e-7 on the errors is absolute.", "quantifier": "all positive factors, all histograms, all histories of variations, covariance matrices and parameter changes, all models", "why_tests_cant": "all factors, contents, histories of calls", "anchors": ["templatefitter/templates/abstract_template.py: AbstractTemplate.fractions", "templatefitter/templates/abstract_template.py: AbstractTemplate._init_errors", "templatefitter/templates/abstract_template.py: AbstractTemplate._add_cov_mat", "templatefitter/templates/abstract_template.py: AbstractTemplate.values", "templatefitter/templates/template1d.py: Template1d.add_variation", "templatefitter/templates/template1d.py: Template1d.add_cov_mat"]}
{"id": "C100", "title": "Gradient of the likelihood", "statement": "Wherever all expected bin contents are positive and no template's varied contents sum to zero, the likelihood is infinitely differentiable in all parameters together (yields and nuisance parameters), and its derivative is the textbook one: for a yield, the sum over channels and bins of (1 - data/expectation) times efficiency times fraction, plus the pull of its constraint; for a nuisance parameter, the effect on the shape of its template plus the inverse correlation matrix applied to the nuisance parameters. At a local minimum in the interior all of these vanish.", "quantifier": "all models, all data, all parameter values with positive expectations, all directions", "why_tests_cant": "derivatives over a continuum of parameter values", "anchors": ["templatefitter/templates/multi_channel_template.py: NegLogLikelihood.__call__", "templatefitter/templates/channel.py: Channel.nll_contribution"]}
{"id": "C101", "title": "Scaling with luminosity", "statement": "Two models with the same templates, without constraints, one with data d and one with c times d (c > 0): at corresponding yields (nu and c nu, same nuisance parameters) the Poisson part of the likelihood is multiplied by c and the penalty of the nuisance parameters unchanged; yields are a best fit to d at given nuisance parameters exactly if c times these yields are a best fit to c d.", "quantifier": "all models, all data, all positive factors, all parameters", "why_tests_cant": "all factors, data and parameter values", "anchors": ["templatefitter/templates/multi_channel_template.py: NegLogLikelihood.__call__", "templatefitter/templates/channel.py: Channel.nll_contribution"]}
{"id": "C102", "title": "The set of best-fit yields", "statement": "At fixed nuisance parameters, two sets of yields are both best fits exactly if they give the same expectation in each bin with data, the same constrained yields and the same total expectation. So the best fit is unique if no non-trivial change of the yields leaves these unchanged, and otherwise each best fit with positive expectations lies on a segment of best fits.", "quantifier": "all models, all data, all nuisance parameters", "why_tests_cant": "a statement about all minima over a continuum", "anchors": ["templatefitter/templates/multi_channel_template.py: NegLogLikelihood.__call__", "templatefitter/templates/channel.py: Channel.nll_contribution"]}
{"id": "C103", "title": "A best fit exists", "statement": "At nuisance parameters that keep all template contents non-negative, with positive efficiencies and a template for each process: if the likelihood is a number for some non-negative yields, there are non-negative yields at which it is smallest: the fit problem the Fitter poses to the minimiser (with yields bounded below by zero) has a solution.", "quantifier": "all models, all data including empty bins, all such nuisance parameters", "why_tests_cant": "existence of a minimum over an unbounded continuum", "anchors": ["templatefitter/templates/multi_channel_template.py: NegLogLikelihood.__call__", "templatefitter/templates/channel.py: Channel.nll_contribution"]}
{"id": "C104", "title": "Where the likelihood is a number", "statement": "For models whose processes all have a template or a constraint, and parameter vectors of the right length: the likelihood is a finite number exactly if all parameters are finite, no template's varied contents sum to zero, and the expectation is positive in each bin with data. There it is the closed formula (Poisson terms, penalties, constraints), also if bins without data have a zero or negative expectation.", "quantifier": "all models, all data, all parameter vectors including NaN and infinities", "why_tests_cant": "an exact domain over all floating-point vectors", "anchors": ["templatefitter/templates/multi_channel_template.py: NegLogLikelihood.__call__", "templatefitter/templates/channel.py: Channel.nll_contribution", "templatefitter/utility.py: xlogyx"]}
{"id": "C105", "title": "The likelihood is bounded below", "statement": "For every model with data the likelihood is bounded below over all parameter vectors at which it is a number, so that a minimiser that may use negative yields has something to converge to.", "quantifier": "all models, all data, all parameter vectors", "why_tests_cant": "an infimum over an unbounded continuum", "anchors": ["templatefitter/templates/multi_channel_template.py: NegLogLikelihood.__call__", "templatefitter/templates/channel.py: Channel.nll_contribution", "templatefitter/utility.py: xlogyx"]}
{"id": "C106", "title": "A fit to Asimov data returns the truth", "statement": "Take a model with zero nuisance parameters whose efficiencies are the channel shares of its yields, whose constraints agree with the yields, with events expected in every bin and whose yields are identifiable (no other yields give the same expectations). With its own Asimov data set as data, the likelihood is 0 at the present parameters, not smaller anywhere and 0 nowhere else; a fit with a minimiser that finds true constrained minima, with bounds that contain the present parameters, returns exactly these parameters and minimum 0, whatever is fixed.", "quantifier": "all such models, all fitter configurations, all minimisers that return true minima, all parameter vectors", "why_tests_cant": "all models and configurations; uniqueness of a minimum over a continuum", "anchors": ["templatefitter/fitter.py: Fitter.do_fit", "templatefitter/templates/multi_channel_template.py: MultiChannelTemplate.generate_asimov_dataset", "templatefitter/templates/multi_channel_template.py: NegLogLikelihood.__call__", "templatefitter/minimizer.py: IMinuitMinimizer.minimize"]}
{"id": "C107", "title": "p-values are probabilities", "statement": "For a chi2 density integrated exactly, the p-values that pearson_chi2_test, default_chi2_test and (for positive data and expectations) cowan_binned_likelihood_gof return are numbers in (0, 1], equal to 1 exactly if data and expectation agree in every bin, and for fixed degrees of freedom they decrease strictly as the statistic grows.", "quantifier": "all positive numbers of degrees of freedom, all data, expectations and errors of the tests' domains", "why_tests_cant": "an improper integral for all real arguments", "anchors": ["templatefitter/stats.py: pearson_chi2_test", "templatefitter/stats.py: default_chi2_test", "templatefitter/stats.py: cowan_binned_likelihood_gof"]}
{"id": "C108", "title": "The likelihood is half the goodness-of-fit statistic", "statement": "For models with data in every bin and positive expectations the likelihood equals half the sum over the channels of cowan_binned_likelihood_gof of data and expectation, plus the penalties of the nuisance parameters and of the constraints: twice the fitted minimum is the likelihood-ratio goodness of fit.", "quantifier": "all models, all data without empty bins, all parameters with positive expectations", "why_tests_cant": "an identity between two independent pieces of code over all real inputs", "anchors": ["templatefitter/stats.py: cowan_binned_likelihood_gof", "templatefitter/templates/multi_channel_template.py: NegLogLikelihood.__call__", "templatefitter/templates/channel.py: Channel.nll_contribution"]}
{"id": "C109", "title": "Profile values are never below the fitted minimum", "statement": "With a minimiser that finds true constrained minima no value of a likelihood profile is below the minimum of the fit it starts with: with subtract_min=True no value is negative, and a point at the fitted value of the parameter has the value 0.", "quantifier": "all models, fitters, parameters, numbers of points and workers, schedules of the worker pool, fix_nui_params on or off", "why_tests_cant": "all models and schedules; relation of minima over a continuum", "anchors": ["templatefitter/fitter.py: Fitter.profile", "templatefitter/fitter.py: Fitter._profile_helper", "templatefitter/fitter.py: Fitter.do_fit"]}
{"id": "C110", "title": "Fitting again from the fitted templates changes nothing", "statement": "Fit with update_templates=True and a minimiser that finds true constrained minima, then fit again with the same configuration: the likelihood function and the parameter names are those of the first fit, the second fit starts at the stored parameters, and it finds the same minimum value.", "quantifier": "all models with data, all fitter configurations, all such minimisers (a different one for each fit)", "why_tests_cant": "all models, configurations and minimisers; relation of minima over a continuum", "anchors": ["templatefitter/fitter.py: Fitter.do_fit", "templatefitter/templates/multi_channel_template.py: MultiChannelTemplate.update_parameters", "templatefitter/templates/multi_channel_template.py: NegLogLikelihood.x0"]}
{"id": "C111", "title": "Channels without common processes are fitted independently", "statement": "If the channels fall into two groups such that no process has templates in both, the likelihood is a sum of a function of the parameters of one group (yields of its processes, nuisance parameters of its channels) and a function of the others. The best-fit parameters of a group therefore do not depend on the data of the other group: the group's parameters of a best fit to one data set, combined with the others' of a best fit to data that differ only in the other group, are again a best fit.", "quantifier": "all models, all such groupings, all data, all parameters", "why_tests_cant": "all groupings and data; minima over a continuum", "anchors": ["templatefitter/templates/multi_channel_template.py: NegLogLikelihood.__call__", "templatefitter/templates/multi_channel_template.py: MultiChannelTemplate.create_nll", "templatefitter/templates/channel.py: Channel.nll_contribution"]}
{"id": "C112", "title": "A template without entries cannot go unnoticed", "statement": "If all contents of some template are zero, the likelihood of the model is NaN at every parameter vector it accepts, whatever the yield of the process (also 0), and no fit with a minimiser that returns true minima returns a result: the defect cannot produce plausible numbers.", "quantifier": "all models with templates and data in every channel, all parameter vectors including NaN and infinities, all fitter configurations", "why_tests_cant": "all floating-point vectors and models", "anchors": ["templatefitter/templates/multi_channel_template.py: NegLogLikelihood.__call__", "templatefitter/templates/channel.py: Channel.nll_contribution", "templatefitter/templates/abstract_template.py: AbstractTemplate.fractions", "templatefitter/fitter.py: Fitter.do_fit"]}
{"id": "C113", "title": "The complete fit problem has a solution", "statement": "With non-negative yields and free nuisance parameters there are parameters at which the likelihood is smallest: the problem do_fit poses to the minimiser has a solution.", "quantifier": "all models whose likelihood is a number somewhere, all data including empty bins", "why_tests_cant": "existence of a minimum over an unbounded continuum", "anchors": ["templatefitter/fitter.py: Fitter.do_fit", "templatefitter/templates/multi_channel_template.py: NegLogLikelihood.__call__", "templatefitter/templates/channel.py: Channel.nll_contribution", "templatefitter/utility.py: xlogyx"]}
{"id": "C114", "title": "The numerical Hesse matrix", "statement": "ScipyMinimizer.calculate_hesse_matrix(fcn, x, args) returns the Hesse matrix that numdifftools computes for fcn as it is now at the point x (a numpy.ndarray, as documented), whatever was called before.", "quantifier": "all functions, points and arguments; all programs that interleave calls with changes of what the functions compute", "why_tests_cant": "all call histories of a memoised method; needs an invariant over the cache", "anchors": ["templatefitter/minimizer.py: ScipyMinimizer.calculate_hesse_matrix"]}
{"id": "C115", "title": "Geometry and assignments of legacy histograms", "statement": "A legacy Histogram(nbins, limits) keeps nbins equally wide bins whatever is done to it: bin_width is the width of every bin and bin_mids are their centres; for Hist1d bin_width is the width of the first bin. Assigning bin_counts or bin_errors replaces exactly that attribute (errors read back as absolute values), and a later fill adds to the assigned contents what it would have added to the old ones.", "quantifier": "all numbers of bins, limits, histories of fills, scalings and assignments, and assigned values", "why_tests_cant": "a unit test sees a few histograms; the claim is about every history and every assigned value", "anchors": ["templatefitter/histogram_legacy.py: Histogram.bin_width", "templatefitter/histogram_legacy.py: Histogram.bin_mids", "templatefitter/histogram_legacy.py: Histogram.bin_counts", "templatefitter/histogram_legacy.py: Histogram.bin_errors", "templatefitter/histogram_legacy.py: Histogram.fill", "templatefitter/histogram_legacy.py: AbstractHist.bin_width"]}
{"id": "C116", "title": "Only yield times efficiency matters", "statement": "Multiplying all efficiencies of a process by a factor and dividing its yield (and the value and uncertainty of its constraint) by the same factor leaves the likelihood unchanged, in models with any number of channels.", "quantifier": "all pairs of models that differ only in the efficiencies, all non-zero factors per process, all constraints, yields and nuisance parameters", "why_tests_cant": "all models and real parameters", "anchors": ["templatefitter/templates/multi_channel_template.py: NegLogLikelihood.__call__", "templatefitter/templates/multi_channel_template.py: MultiChannelTemplate.create_nll", "templatefitter/templates/channel.py: Channel.nll_contribution", "templatefitter/templates/channel.py: Channel._get_efficiencies_as_array"]}
{"id": "C117", "title": "The numbering of the bins does not matter", "statement": "Renumbering the bins of a channel in the same way in all templates, correlation matrices, data and nuisance parameters leaves the likelihood unchanged.", "quantifier": "all models, all permutations of the bins of every channel, all yields and nuisance parameters", "why_tests_cant": "all permutations and real parameters", "anchors": ["templatefitter/templates/multi_channel_template.py: NegLogLikelihood.__call__", "templatefitter/templates/channel.py: Channel.nll_contribution", "templatefitter/templates/abstract_template.py: AbstractTemplate.fractions"]}
{"id": "C118", "title": "Unused processes do not influence the likelihood", "statement": "The yield of a process that has a template in no channel and no constraint does not matter: the likelihood returns the same number or raises the same exception whatever stands at its position.", "quantifier": "all models, all such processes, all parameter vectors of any length and content, all replaced values including NaN and infinities", "why_tests_cant": "all models and floating-point vectors", "anchors": ["templatefitter/templates/multi_channel_template.py: MultiChannelTemplate.define_process", "templatefitter/templates/multi_channel_template.py: NegLogLikelihood.__call__", "templatefitter/templates/multi_channel_template.py: MultiChannelTemplate.generate_per_channel_parameters"]}
{"id": "C119", "title": "Expected significance", "statement": "If a model describes its data exactly (for instance because they are its Asimov data), get_significance(p) with a minimizer that finds true minima is 0 exactly when the present yield of p is not positive, and otherwise the square root of twice the minimum of the fit without p (never negative or NaN).", "quantifier": "all models whose yields are identifiable, both minimizers, all fitter configurations whose bounds contain the present parameters, all processes", "why_tests_cant": "all models, data sets and optimisers; a test sees one minimisation", "anchors": ["templatefitter/fitter.py: TemplateFitter.get_significance", "templatefitter/templates/multi_channel_template.py: MultiChannelTemplate.generate_asimov_dataset"]}
{"id": "C120", "title": "A fit returns the constrained maximum of the likelihood", "statement": "With a minimizer that finds true minima of the problem it is handed, do_fit returns the best point of the problem the user configured: parameters fixed with set_parameter_fixed or fix_nui_params keep the model's values, all others lie within the bounds set last, the reported minimum is the likelihood at the returned parameters and no allowed point has a smaller one. Hence fixing more parameters never lowers the minimum and the minimum does not depend on the choice of the minimizer.", "quantifier": "all models, all histories of fitter calls, fit options and optimisers (scipy: at most one fixed parameter)", "why_tests_cant": "all configurations and optimisers", "anchors": ["templatefitter/fitter.py: TemplateFitter.do_fit", "templatefitter/fitter.py: TemplateFitter.set_parameter_fixed", "templatefitter/fitter.py: TemplateFitter.set_parameter_bounds", "templatefitter/minimizer.py: IMinuitMinimizer.minimize", "templatefitter/minimizer.py: ScipyMinimizer.minimize"]}
{"id": "C121", "title": "Fit results do not depend on the order of the calls", "statement": "If two programs make the same accepted calls in different orders (so channels, processes, templates and hence the positions of all parameters differ) and the fitter is configured by parameter names, then fits of both with a minimizer that finds true minima have the same minimum whenever both are finite, and the values found by the first fit, carried over parameter name by parameter name, are a best allowed point of the second.", "quantifier": "all pairs of programs that are reorderings of each other, all configurations by name, fit options, both minimizers (scipy: at most one fixed parameter) and all optimisers", "why_tests_cant": "all reorderings, models, configurations and optimisers", "anchors": ["templatefitter/fitter.py: TemplateFitter.do_fit", "templatefitter/fitter.py: TemplateFitter.set_parameter_fixed", "templatefitter/fitter.py: TemplateFitter.set_parameter_bounds", "templatefitter/templates/multi_channel_template.py: MultiChannelTemplate.define_channel", "templatefitter/templates/multi_channel_template.py: MultiChannelTemplate.define_process", "templatefitter/templates/multi_channel_template.py: MultiChannelTemplate.add_template", "templatefitter/templates/multi_channel_template.py: MultiChannelTemplate.param_names"]}
{"id": "C122", "title": "A rejected parameter update leaves the model unchanged", "statement": "update_parameters(x) is accepted exactly if x has at least num_processes + num_nui_params entries (surplus entries are ignored); if it raises, all parameters of all templates are as before.", "quantifier": "all models whose channels have templates and bins, all vectors of any length and content", "why_tests_cant": "all models and vectors of every length", "anchors": ["templatefitter/templates/multi_channel_template.py: MultiChannelTemplate.update_parameters", "templatefitter/templates/multi_channel_template.py: MultiChannelTemplate.generate_per_channel_parameters", "templatefitter/templates/channel.py: Channel.update_parameters", "templatefitter/templates/abstract_template.py: AbstractTemplate.yield_param", "templatefitter/templates/abstract_template.py: AbstractTemplate.nui_params"]}
{"id": "C123", "title": "Fit results satisfy the likelihood equations", "statement": "With a minimizer that finds true minima, at the values returned by do_fit with a finite minimum the partial derivative of the likelihood with respect to every parameter that may still increase (not fixed, below its upper bound) is not negative and with respect to every parameter that may decrease not positive, so it is zero for every free parameter inside its bounds. Without constraints and with every yield free or zero, the fitted model expects exactly as many events as were observed.", "quantifier": "all models with real-valued templates and data (bins with observed events may be arbitrary, empty bins allowed), all configurations, fit options, both minimizers (scipy: at most one fixed parameter)", "why_tests_cant": "all models, data, configurations and optimisers; a derivative cannot be tested", "anchors": ["templatefitter/fitter.py: TemplateFitter.do_fit", "templatefitter/templates/multi_channel_template.py: NegLogLikelihood.__call__", "templatefitter/minimizer.py: IMinuitMinimizer.minimize", "templatefitter/minimizer.py: ScipyMinimizer.minimize"]}
{"id": "C124", "title": "Unweighted histogram contents are exact in floating point", "statement": "With integer weights (in particular without weights) whose absolute values sum to at most 2^53, the histogram computed in IEEE double precision has exactly the contents and squared errors that exact arithmetic gives, after any number of fills, and summing it in any order and grouping gives exactly the total; the limit is sharp: a bin that holds 2^53 events does not count the next one.", "quantifier": "all binnings in one and two dimensions, all batches of data and integer weights, all histories of fills, all orders of summation", "why_tests_cant": "all data sets, up to 9e15 events; rounding errors depend on every partial sum", "anchors": ["templatefitter/histograms/hist1d.py: Hist1d.fill", "templatefitter/histograms/hist1d.py: Hist1d.bin_counts", "templatefitter/histograms/hist1d.py: Hist1d.bin_errors_sq", "templatefitter/histograms/hist2d.py: Hist2d.fill"]}
{"id": "C125", "title": "Template fractions and values stay in range in floating point", "statement": "In floating point, whatever the order in which numpy sums, a template filled with nonnegative counts and nonnegative effective weights has fractions that are NaN or lie in [0, 1], and values that are NaN or lie in [0, yield]: rounding can not push a bin fraction above 1 or a bin content above the yield or below 0.", "quantifier": "all arithmetics that round monotonically and keep representable numbers (IEEE double, single, any rounding mode), all templates, nuisance parameters and yields", "why_tests_cant": "all floating-point inputs and summation orders", "anchors": ["templatefitter/templates/abstract_template.py: bin_fractions", "templatefitter/templates/abstract_template.py: AbstractTemplate.fractions", "templatefitter/templates/abstract_template.py: AbstractTemplate.values"]}
{"id": "C126", "title": "Floating-point accuracy of fractions and expected events", "statement": "In double precision the fractions of a template with n bins have a relative error of at most (n + 6) 2^-52 and sum to one within that, and the expected events per bin of a channel with K templates a relative error of at most (n + K + 7) 2^-52, whatever the order of summation in numpy and BLAS and with or without fused multiply-add, as long as nothing leaves the range of normal numbers and no nuisance parameter varies a bin below half its content.", "quantifier": "all templates and channels of any size, all nonnegative yields and efficiencies and nuisance parameters in that range, all orders of operations, all floating-point formats with relative rounding error u (2 (n+6) u, 2 (n+K+7) u)", "why_tests_cant": "all inputs and all summation orders of the linear algebra library; a test sees one platform", "anchors": ["templatefitter/templates/abstract_template.py: bin_fractions", "templatefitter/templates/abstract_template.py: AbstractTemplate.fractions", "templatefitter/templates/channel.py: Channel._fractions", "templatefitter/templates/channel.py: Channel._expected_evts_per_bin"]}
{"id": "C127", "title": "Floating-point accuracy of the likelihood", "statement": "The likelihood contribution of a channel with K templates of n bins, computed in double precision with a log1p accurate to one unit in the last place, differs from the exact value by at most (6n + 2K + 40) 2^-53 times the sum over the bins of (expected + observed + |observed log(expected/observed)|) plus (3Kn + 4) 2^-53 times the sum of the absolute values of the terms of the nuisance penalty, whatever the order of summation and with or without fused multiply-add, as long as nothing leaves the range of normal numbers.", "quantifier": "all channels of any size, all observed counts (empty bins included), yields, efficiencies and nuisance parameters in that range, all inverse correlation matrices, all orders of operations, all floating-point formats with relative rounding error u", "why_tests_cant": "all inputs and all summation orders of the linear algebra library; the error depends on cancellations no test enumerates", "anchors": ["templatefitter/templates/channel.py: Channel.nll_contribution", "templatefitter/templates/channel.py: Channel._gauss_term", "templatefitter/utility.py: xlogyx"]}
{"id": "C128", "title": "Floating-point accuracy of the likelihood of the whole model", "statement": "The value of the cost function for a model with any channels and yield constraints, computed in double precision with a log1p accurate to one unit in the last place and correctly rounded squares, is finite and differs from the exact value by at most the sum of the channels' errors ((6n + 2K + 40) 2^-53 times the size of the Poisson terms, (3Kn + 4) 2^-53 times the size of the terms of the penalty), 14 * 2^-53 times the size of every constraint term (x - v)^2/(2 e^2), and 4 N 2^-53 times the size of everything for adding up the N channels and constraints, as long as nothing leaves the range of normal numbers.", "quantifier": "all models built by any sequence of calls before evaluation, any number of channels, processes, bins and constraints, all data, yields and nuisance parameters in that range, all orders of summation inside numpy and BLAS, all floating-point formats with relative rounding error u", "why_tests_cant": "all models, inputs and summation orders; an optimizer sees the error as noise that no single test bounds", "anchors": ["templatefitter/templates/multi_channel_template.py: NegLogLikelihood.__call__", "templatefitter/templates/multi_channel_template.py: MultiChannelTemplate.generate_per_channel_parameters", "templatefitter/templates/channel.py: Channel.nll_contribution"]}
{"id": "C129", "title": "Equal-width bin edges in floating point", "statement": "A histogram with n equal-width bins between two floating-point numbers lo < hi gets, in floating-point arithmetic, n + 1 finite edges; the first is exactly lo and the last exactly hi; every edge is within u(|x| + 7(x - lo)) of the exact position x; if the bins are wider than 30 u max(|lo|, |hi|) (u = 2^-53 in double precision) the edges strictly increase, so fills succeed, every number in [lo, hi] belongs to a bin, lo to the first and hi to the last.", "quantifier": "every precision and rounding to nearest meeting the IEEE error bounds, every pair of limits, every number of bins, every event value", "why_tests_cant": "the rounding errors depend on the limits and the number of bins; no test covers all of them", "anchors": ["templatefitter/histograms/hist1d.py: Hist1d._init_bin_edges", "templatefitter/histograms/hist2d.py: Hist2d._init_bin_edges"]}
{"id": "C130", "title": "Weighted histogram contents in floating point", "statement": "An empty histogram, in one or two dimensions, is filled any number of times with any finite weights of either sign, every operation rounded. In a bin holding N events of weights w, the content differs from the sum of the weights by at most 2 N u times the sum of |w|, the squared error from the sum of w^2 by at most 2 N u times that sum, and the bin error from its square root by at most 2 (N + 1) u times it (u = 2^-53 in double precision), as long as nothing leaves the range of normal numbers.", "quantifier": "every histogram with any number of bins, every sequence of fills with any number of events, every weight in that range, every floating-point format with relative rounding error u", "why_tests_cant": "all weights and event histories; the error grows with the number of events, which no test exhausts", "anchors": ["templatefitter/histograms/hist1d.py: Hist1d.fill", "templatefitter/histograms/hist2d.py: Hist2d.fill", "templatefitter/histograms/abstract_hist.py: AbstractHist.bin_errors"]}
{"id": "C131", "title": "Second derivatives of the likelihood and fit errors", "statement": "At every point with positive expectations the cost function is twice differentiable along every straight line in the space of all yields and nuisance parameters; its second derivative is the information sum n (expected'/expected)^2 + eta^T R^-1 eta + sum (delta/e)^2 plus sum (1 - n/expected) expected''. In the yields alone it is never negative. For data equal to the expectation (Asimov) and identifiable yields the matrix of second derivatives is positive definite, and a scipy fit (exact minimization and differentiation) returns its inverse as covariance, with positive errors equal to the roots of its diagonal.", "quantifier": "all built models with any channels, templates, bins and constraints, all points with positive expectations, all directions, all data, all fitter configurations", "why_tests_cant": "derivatives at all points and in all directions of a parameter space of any dimension", "anchors": ["templatefitter/templates/multi_channel_template.py: NegLogLikelihood.__call__", "templatefitter/templates/channel.py: Channel.nll_contribution", "templatefitter/minimizer.py: ScipyMinimizer.minimize", "templatefitter/fitter.py: TemplateFitter.do_fit"]}
{"id": "C132", "title": "Parameters held fixed do not contribute to the errors of a scipy fit", "statement": "A parameter that is held fixed in a fit with the scipy minimizer is reported without an error and does not enlarge the errors of the free parameters. (False: the covariance is the inverse of the second derivatives in all parameters. Proved instead: such fits report the same errors whatever is held fixed; the reported error of a free parameter is never smaller than the one with the fixed parameters held, and strictly larger as soon as it is correlated with a fixed one.)", "quantifier": "all models, all configurations of fixed parameters, all positive definite matrices of second derivatives and choices of fixed parameters", "why_tests_cant": "all configurations and models; the enlarged error looks plausible in any single fit", "anchors": ["templatefitter/minimizer.py: ScipyMinimizer.minimize", "templatefitter/minimizer.py: ScipyMinimizer.set_param_fixed", "templatefitter/fitter.py: TemplateFitter.set_parameter_fixed", "templatefitter/fitter.py: TemplateFitter.do_fit"]}
{"id": "C133", "title": "Floating-point accuracy of the chi-square statistics", "statement": "pearson_chi2_test and default_chi2_test, computed in floating point in any order of summation, return a statistic that is finite, never negative and zero exactly if the data equal the expectation, with a relative error of at most 2(n+3)u (Pearson) or 2(n+4)u (explicit uncertainties) for n bins, one rounding more for the reduced statistic; in double precision (n+3) 2^-52, for expectations between 2^-200 and 2^200 and differences that are zero or between 2^-300 and 2^300 in size.", "quantifier": "all numbers of bins, data, positive expectations, uncertainties and degrees of freedom in that range, all orders of summation, all floating-point formats with relative rounding error u", "why_tests_cant": "all inputs and summation orders; cancellation in data - expectation could amplify errors", "anchors": ["templatefitter/stats.py: pearson_chi2_test", "templatefitter/stats.py: default_chi2_test"]}
{"id": "C134", "title": "The likelihood-ratio statistic is never negative in floating point", "statement": "cowan_binned_likelihood_gof, computed in floating point, never returns a negative statistic for positive data and expectations. (False: 11 events in a bin with expectation 11 - 2^-48 give a negative statistic in double precision, whatever accurate logarithm is used. Proved instead: it differs from the exact, non-negative value by at most (8n + 2k + 32)u times the sum over bins of n|log(n/nu)| + n + nu, for a logarithm accurate to k u.)", "quantifier": "all numbers of bins, positive data and expectations in range, all accurate logarithms, all orders of summation, all floating-point formats with relative rounding error u", "why_tests_cant": "all inputs; the sign of a result that cancels almost completely depends on the last bits", "anchors": ["templatefitter/stats.py: cowan_binned_likelihood_gof"]}
{"id": "C135", "title": "Averages over toy experiments", "statement": "Let the toy data sets of a model be drawn as Poisson numbers with the requested means. Then the average over toys of the cost function is, at every parameter point, the cost function of the Asimov data set plus one constant that is not negative; it is smallest at the parameters the data are generated with (zero nuisance parameters, centred constraints, identifiable yields) and nowhere else as small; there the slope in any direction averages to the slope of the penalties alone, its variance for independent bins is sum expected'^2/expected, and the second derivative averages to that of the Asimov data set, which is this variance plus the penalty terms.", "quantifier": "all built models with any channels, templates, bins and constraints, all present parameters with positive expectations, all points and directions, all probability spaces and Poisson generators", "why_tests_cant": "an average over infinitely many random data sets, at all points of a parameter space of any dimension", "anchors": ["templatefitter/templates/multi_channel_template.py: MultiChannelTemplate.generate_toy_dataset", "templatefitter/templates/multi_channel_template.py: MultiChannelTemplate.generate_asimov_dataset", "templatefitter/templates/multi_channel_template.py: NegLogLikelihood.__call__", "templatefitter/templates/channel.py: Channel.generate_toy_dataset", "templatefitter/templates/channel.py: Channel.nll_contribution", "templatefitter/toy_study.py: ToyStudy.do_experiments"]}
{"id": "C136", "title": "Goodness of fit and event numbers of toy data", "statement": "For toy data sets drawn as independent Poisson numbers with the requested means, pearson_chi2_test against the Asimov data set, and default_chi2_test with the errors of the Asimov data set, return the same statistic; its average over toys is exactly the number of bins and its variance sum (2 + 1/expected). The total number of events of a channel is a Poisson number whose mean is the sum of the yields of its templates.", "quantifier": "all reachable models, all channels, yields and nuisance parameters with positive expectations, all probability spaces and Poisson generators", "why_tests_cant": "exact averages over infinitely many random data sets", "anchors": ["templatefitter/templates/multi_channel_template.py: MultiChannelTemplate.generate_toy_dataset", "templatefitter/templates/channel.py: Channel.generate_toy_dataset", "templatefitter/templates/channel.py: Channel.generate_asimov_dataset", "templatefitter/stats.py: pearson_chi2_test", "templatefitter/stats.py: default_chi2_test"]}
{"id": "C137", "title": "Fits to toy data are unbiased in the number of events", "statement": "In a model without constraints, a fit to a toy data set with a minimizer that finds true minima returns parameters at which the model expects exactly as many events as were drawn, as long as each fitted yield is zero or free to move; each row of a toy study does so for the events of its attempt, with the nuisance parameters unchanged. For mutually independent Poisson numbers the fitted number of events is therefore itself Poisson: its average and its variance are the sum of the yields of the generating model. With a single process the average of the fitted yield is exactly the true yield and its variance the true yield divided by the total efficiency.", "quantifier": "all built models with any channels, templates and bins, all present parameters with non-negative expectations, all fitter configurations, all probability spaces and Poisson generators, all toy studies", "why_tests_cant": "an average over infinitely many random data sets and over the results of a minimization for each of them", "anchors": ["templatefitter/toy_study.py: ToyStudy.do_experiments", "templatefitter/toy_study.py: ToyStudy.result_parameters", "templatefitter/fitter.py: TemplateFitter.do_fit", "templatefitter/templates/multi_channel_template.py: MultiChannelTemplate.generate_toy_dataset", "templatefitter/templates/multi_channel_template.py: NegLogLikelihood.__call__", "templatefitter/templates/channel.py: Channel.generate_toy_dataset"]}
{"id": "C138", "title": "Toy studies are unbiased", "statement": "The fitted yields in the rows of a toy study scatter around the true yields of the model. (False: an attempt whose fit raises is repeated with a new data set, so data sets for which no best fit exists drop out of the study; for a process that expects half an event every row reports at least one event. Proved instead: every row belongs to an attempt in which at least one event was drawn in a channel of every process with non-negative efficiencies; studies that repeat attempts do return.)", "quantifier": "all built models without constraints, all present parameters with non-negative expectations, all generators, all toy studies of any length with any number of attempts, all minimizers that return true minima of finite value or raise", "why_tests_cant": "a bias of an average over infinitely many random data sets through the selection of attempts; single studies look plausible", "anchors": ["templatefitter/toy_study.py: ToyStudy.do_experiments", "templatefitter/toy_study.py: ToyStudy._experiment", "templatefitter/toy_study.py: ToyStudy.result_parameters", "templatefitter/fitter.py: TemplateFitter.do_fit", "templatefitter/templates/channel.py: Channel.generate_toy_dataset"]}
{"id": "C139", "title": "The reported uncertainty of the number of events is the Poisson one", "statement": "After a fit with the scipy minimizer (at most one parameter held fixed) of a model without constraints, every yield free to move and every bin expected to be populated, the returned covariance gives the total number of accepted events (sum of yield times efficiency over processes and channels) a variance equal to the number of observed events. The covariances of that number with the yields are the fitted yields, those with the nuisance parameters zero. With a single process the reported error of its yield is the square root of the number of observed events divided by its total efficiency, and it is uncorrelated with all nuisance parameters. In fits of toy data the reported variance is the number of drawn events, which on average is the true variance.", "quantifier": "all built models without constraints with any channels, templates and bins, all data and fitted parameters with positive expectations, all fitter configurations, exact minimization and differentiation", "why_tests_cant": "an identity between the inverse of a matrix of second derivatives, of any dimension, and the data, at minima of arbitrary likelihoods", "anchors": ["templatefitter/fitter.py: TemplateFitter.do_fit", "templatefitter/minimizer.py: ScipyMinimizer.minimize", "templatefitter/templates/multi_channel_template.py: NegLogLikelihood.__call__", "templatefitter/templates/channel.py: Channel.nll_contribution"]}
{"id": "C140", "title": "Fits to toy data are consistent", "statement": "A fit that starts at a point with positive expectations a and uses a minimizer that never returns a point worse than its start gives non-negative expectations m for the data n with sum (sqrt m - sqrt a)^2 + 2 (penalties of the result) <= 4 sum (n - a)^2 / a + 2 (penalties of the start). For toy data generated from the model at its present parameters the average squared distance between the roots of fitted and true expectations is hence at most 4 times the number of bins plus twice the penalties of the truth, however many events are expected; the probability that the fitted number of events is off by a given factor falls at least as fast as one over the expected number of events.", "quantifier": "all built models with constraints or without, all channels, templates, bins and present parameters with positive expectations, all data, all fitter configurations that admit the start, iminuit and scipy, all minimizers that never make things worse (exact or not), all probability spaces and Poisson generators", "why_tests_cant": "a bound on averages over infinitely many random data sets for every model size and every number of events", "anchors": ["templatefitter/toy_study.py: ToyStudy.do_experiments", "templatefitter/fitter.py: TemplateFitter.do_fit", "templatefitter/templates/multi_channel_template.py: MultiChannelTemplate.generate_toy_dataset", "templatefitter/templates/multi_channel_template.py: NegLogLikelihood.__call__", "templatefitter/templates/channel.py: Channel.generate_toy_dataset", "templatefitter/templates/channel.py: Channel.nll_contribution"]}
{"id": "C141", "title": "Values read from histograms and templates are snapshots", "statement": "An array read from hist.bin_counts or template.params keeps the values it had when it was read, so that counts before and after a fill can be compared and saved parameters can be restored. (False: both are the live arrays. The array read from bin_counts shows the present contents of the histogram after any further program; the array from params shows the present parameters as long as the template is given no other array, and handing it back with template.params = saved changes nothing; writing into either changes the object without any check. Proved instead: a copy that the program does not use otherwise survives every program, and assigning it restores exactly the old parameters and changes no other object; the array read before template.reset() does so too when no other object shares it.)", "quantifier": "all programs of histogram and template calls, array allocations, writes into arrays and hand-overs of any length, all reachable sharing of arrays between histograms, templates and the user", "why_tests_cant": "needs every program between reading and using the array; tests compare values right after reading them", "anchors": ["templatefitter/histograms/abstract_hist.py: AbstractHist.bin_counts", "templatefitter/templates/abstract_template.py: AbstractTemplate.params", "templatefitter/templates/abstract_template.py: AbstractTemplate.yield_param", "templatefitter/templates/abstract_template.py: AbstractTemplate.nui_params", "templatefitter/templates/abstract_template.py: AbstractTemplate.reset", "templatefitter/histograms/hist1d.py: Hist1d.fill"]}
{"id": "C142", "title": "Fitted yields converge to the true yields", "statement": "Toy data sets generated from a model at its present parameters are fitted from there with a minimizer that never returns a point worse than its start. The probability that the fitted expectations, summed over the bins, are off by a given fraction of all events is at most a constant over the expected number of events. With the nuisance parameters fixed, iminuit, and process shapes that are linearly independent, the same holds for every yield: when all yields are L times as large, the probability that some fitted yield is off by more than the fraction eps is at most K / L, with K independent of L.", "quantifier": "all built models with constraints or without, all channels, processes, templates, bins and present parameters with positive expectations, all luminosities, all fitter configurations that admit the start, all minimizers that never make things worse, all probability spaces and Poisson generators", "why_tests_cant": "a statement about the limit of infinitely many events and the distribution of the results of fits over random data sets", "anchors": ["templatefitter/toy_study.py: ToyStudy.do_experiments", "templatefitter/fitter.py: TemplateFitter.do_fit", "templatefitter/minimizer.py: IMinuitMinimizer.minimize", "templatefitter/templates/multi_channel_template.py: MultiChannelTemplate.generate_toy_dataset", "templatefitter/templates/multi_channel_template.py: NegLogLikelihood.__call__"]}
{"id": "C143", "title": "The reported errors have the right coverage", "statement": "Toy data sets of independent Poisson numbers are generated from a model without constraints and fitted with scipy (exact minimization and differentiation). The interval fitted total number of events +- t times its reported standard deviation covers the true total with exactly the probability that a Poisson number N of the same mean is within t sqrt(N) of its mean, up to the probability that the fit fails or ends at a boundary. For every t and eps there is a number of events, the same for all models and fit configurations, from which on this probability is the one of [-t, t] under the standard normal distribution (68.3 % for t = 1) up to eps. In a model with one process the same holds for the yield and its reported error.", "quantifier": "all built models without constraints with any channels, templates and bins, all scipy fitter configurations with at most one fixed parameter, all numbers of standard deviations, all probability spaces and Poisson generators, all sets of failing fits", "why_tests_cant": "a probability over infinitely many random data sets and its limit for many events; a toy study can only sample it for one model", "anchors": ["templatefitter/toy_study.py: ToyStudy.do_experiments", "templatefitter/fitter.py: TemplateFitter.do_fit", "templatefitter/minimizer.py: ScipyMinimizer.minimize", "templatefitter/templates/channel.py: Channel.generate_toy_dataset"]}
{"id": "C144", "title": "Pulls of toy studies follow a standard normal distribution", "statement": "After do_experiments, get_toy_result_pulls(process) returns one pull per experiment, and if the fits are exact (true minima, exact HESSE errors) the pulls of data generated from the model follow a standard normal distribution. (False: in a model with one process of M expected accepted events the pull of a toy with N >= 1 events is exactly (N - M) / sqrt N, and for M >= 4 the mean of the pulls is negative. Proved instead: this formula for every study, the mean pull is at most 2 / sqrt M in absolute value, and for every b the probability of a pull of at most b converges to the one of the standard normal distribution as M grows, uniformly in the model.)", "quantifier": "all built models with one process, without constraints, with events expected in all bins, all channels, templates and bins, all numbers of experiments and retries, all exact minimizers, all probability spaces and Poisson generators", "why_tests_cant": "the distribution of a random quantity and its limit for many events; a toy study can only sample it, and the bias is far below its statistical precision", "anchors": ["templatefitter/toy_study.py: ToyStudy.get_toy_result_pulls", "templatefitter/toy_study.py: ToyStudy.do_experiments", "templatefitter/fitter.py: TemplateFitter.do_fit", "templatefitter/minimizer.py: IMinuitMinimizer.minimize", "templatefitter/templates/channel.py: Channel.generate_toy_dataset"]}
{"id": "C145", "title": "Nuisance parameters, constraints and priors change the reported errors in the right direction", "statement": "Two fits with iminuit (exact minima, exact HESSE errors) that differ only in what is held fixed and end at the same parameters: the fit that holds more parameters fixed, for example all nuisance parameters, reports for no remaining parameter a larger error. A Gaussian constraint on one more yield makes no reported error larger, and the error of the constrained yield is at most the width of the constraint. The error of every free nuisance parameter is positive and at most the prior standard deviation one. For fits of a model to its own Asimov data set the fits do end at the same parameters. (Scipy reports the same errors whatever is held fixed, see the property on fixed parameters.)", "quantifier": "all built models with any channels, processes, templates, bins and correlated nuisance parameters, all yields, data and existing constraints, all fitter configurations of fixed parameters and bounds, all exact minimizers", "why_tests_cant": "compares two fits over all models and configurations; tests look at one model and do not vary what is fixed", "anchors": ["templatefitter/minimizer.py: IMinuitMinimizer.minimize", "templatefitter/minimizer.py: AbstractMinimizer.set_param_fixed", "templatefitter/fitter.py: TemplateFitter.do_fit", "templatefitter/fitter.py: TemplateFitter.set_parameter_fixed", "templatefitter/templates/multi_channel_template.py: MultiChannelTemplate.add_gaussian_constraint_on_yield", "templatefitter/templates/multi_channel_template.py: NegLogLikelihood.__call__", "templatefitter/templates/channel.py: Channel._gauss_term"]}
{"id": "C146", "title": "With L times as much data the errors of the yields grow by a factor between sqrt L and L", "statement": "A model without constraints is fitted with iminuit (exact minima, exact HESSE errors) to Asimov data generated at some yields, and in a second session to Asimov data generated at L times these yields, L >= 1, with the same parameters held fixed. Both fits return the yields set before; the error of every free yield is at least sqrt L and at most L times as large, exactly sqrt L times if all nuisance parameters are held fixed, and no error of a nuisance parameter grows. So relative errors never grow with the luminosity, improve at most like 1 / sqrt L, and do improve like 1 / sqrt L without systematic uncertainties. The same for any two data sets of which the second is L times the first, if the fits end at corresponding parameters.", "quantifier": "all built models without constraints with any channels, processes, templates, bins and correlated nuisance parameters, all yields, all factors L >= 1, all fitter configurations without bounds, all exact minimizers", "why_tests_cant": "compares two fits over all models, yields and luminosities", "anchors": ["templatefitter/minimizer.py: IMinuitMinimizer.minimize", "templatefitter/fitter.py: TemplateFitter.do_fit", "templatefitter/templates/multi_channel_template.py: MultiChannelTemplate.update_parameters", "templatefitter/templates/multi_channel_template.py: MultiChannelTemplate.generate_asimov_dataset", "templatefitter/templates/multi_channel_template.py: NegLogLikelihood.__call__", "templatefitter/templates/channel.py: Channel.update_parameters", "templatefitter/templates/channel.py: Channel.generate_asimov_dataset"]}
{"id": "C147", "title": "Adding channels to a fit never makes the errors larger", "statement": "Two models with the same processes, the second with all channels of the first and further ones (a combined fit), both with the data expected for the same yields: iminuit fits (exact minima, exact HESSE errors) of both return these yields, also from other start values, and no parameter of the first model has a larger error in the combined fit than in the fit of the first model alone, whatever nuisance parameters, constraints and correlations the further channels bring, as long as the combined fit does not free a parameter that was fixed. Without constraints the combined fit is at least as precise for every yield as the weighted average of the results of the separate fits of the two sets of channels.", "quantifier": "all pairs of built models of which one has further channels, with any channels, processes, templates, bins, efficiencies, constraints and correlated nuisance parameters, all yields, all start values, all fixed parameters, all exact minimizers", "why_tests_cant": "compares fits of two different models for all yields; tests look at one model", "anchors": ["templatefitter/minimizer.py: IMinuitMinimizer.minimize", "templatefitter/fitter.py: TemplateFitter.do_fit", "templatefitter/templates/multi_channel_template.py: MultiChannelTemplate.define_channel", "templatefitter/templates/multi_channel_template.py: MultiChannelTemplate.generate_per_channel_parameters", "templatefitter/templates/multi_channel_template.py: NegLogLikelihood.__call__", "templatefitter/templates/channel.py: Channel.nll_contribution"]}
{"id": "C148", "title": "Merging bins never makes the errors of the yields smaller", "statement": "A model and the same model with coarser binning (the contents of a bin of the coarse templates are the sums of the contents of the bins merged into it), the data of both expected for the same yields: iminuit fits (exact minima, exact HESSE errors) with all nuisance parameters held fixed return the true yields in both cases, and no yield has a smaller error in the coarse model. If only bins are merged in which all processes have the same composition (the bins differ by a common factor of all templates), the errors are equal.", "quantifier": "all pairs of built models of which one has merged bins, with any channels, processes, templates, bins, efficiencies and constraints, any grouping of the bins, all yields, all start values, all fixed parameters, all exact minimizers", "why_tests_cant": "compares fits of two different models for all yields and groupings; tests look at one binning", "anchors": ["templatefitter/minimizer.py: IMinuitMinimizer.minimize", "templatefitter/fitter.py: TemplateFitter.do_fit", "templatefitter/templates/multi_channel_template.py: MultiChannelTemplate.add_template", "templatefitter/templates/multi_channel_template.py: NegLogLikelihood.__call__", "templatefitter/templates/channel.py: Channel.nll_contribution", "templatefitter/templates/channel.py: Channel._fractions"]}
{"id": "C149", "title": "Filling coarse bins is filling fine bins and merging them", "statement": "Two one-dimensional histograms, the edges of the second being those of the first without some inner ones, are made by any accepted constructor call and filled with the same batches of events and weights. Then every bin content and squared error of the coarse histogram is the sum of those of the fine bins merged into that bin, so merging bins after filling and filling with coarse bins are interchangeable. The same holds for two-dimensional histograms and cells, and for the values and (without empty bins) the squared errors of templates made from the two histograms, at equal yields.", "quantifier": "all pairs of edges of which one is a subset of the other with the same ends, given in any accepted form, all batches of events and weights, also NaN, infinite and out-of-range values", "why_tests_cant": "relates two histograms for all edges and all events", "anchors": ["templatefitter/histograms/hist1d.py: Hist1d.fill", "templatefitter/histograms/hist1d.py: Hist1d.__init__", "templatefitter/histograms/hist1d.py: Hist1d._init_bin_edges", "templatefitter/histograms/hist2d.py: Hist2d.fill", "templatefitter/histograms/hist2d.py: Hist2d.__init__", "templatefitter/histograms/abstract_hist.py: AbstractHist.bin_counts", "templatefitter/histograms/abstract_hist.py: AbstractHist.bin_errors_sq", "templatefitter/templates/abstract_template.py: AbstractTemplate.values", "templatefitter/templates/abstract_template.py: AbstractTemplate.errors"]}

{"id": "C01", "title": "score is the exact log-likelihood (implementation='log')", "statement": "For every model with non-negative start and transition probabilities and non-negative frame likelihoods, score(X) with implementation='log' returns log of the sum, over every hidden state path, of startprob * product of transitions * product of frame likelihoods (and -inf exactly when that sum is 0).", "quantifier": "every n_components >= 1, every sequence length >= 1, every non-negative startprob/transmat/frame likelihood", "why_tests_cant": "The sum has n_components**n_samples terms and the claim ranges over all lengths and all real parameters; tests compare a handful of rounded numbers.", "anchors": ["ext/_hmmc.cpp:forward_log", "ext/_hmmc.cpp:logsumexp", "src/hmmlearn/base.py:_AbstractHMM._score_log"]}
{"id": "C02", "title": "score is the exact log-likelihood or a ValueError (implementation='scaling')", "statement": "With implementation='scaling', score(X) either returns the same exact log-likelihood or raises the 'forward pass failed with underflow' error; it raises exactly when some conditional frame probability p(x_t | x_1..x_{t-1}) is below 1e-300, and always raises when the likelihood is 0.", "quantifier": "every model and every sequence, of any length", "why_tests_cant": "The error frontier and the equality hold for all inputs; sampling never reaches the boundary.", "anchors": ["ext/_hmmc.cpp:forward_scaling", "src/hmmlearn/base.py:_AbstractHMM._score_scaling"]}
{"id": "C03", "title": "The two implementations agree", "statement": "Whenever implementation='scaling' does not raise, it returns the same score, the same posteriors, the same decoded MAP states and the same expected transition counts as implementation='log'.", "quantifier": "every model and every list of sequences on which scaling does not raise", "why_tests_cant": "An equivalence of two programs over an infinite input space.", "anchors": ["ext/_hmmc.cpp:forward_scaling", "ext/_hmmc.cpp:backward_scaling", "ext/_hmmc.cpp:compute_scaling_xi_sum", "ext/_hmmc.cpp:compute_log_xi_sum", "src/hmmlearn/base.py:_score_log", "src/hmmlearn/base.py:_score_scaling"]}
{"id": "C04", "title": "predict_proba returns the exact smoothing marginals", "statement": "If the sequence has positive likelihood, predict_proba(X)[t, i] equals the total weight of the state paths that are in state i at time t divided by the total weight of all state paths.", "quantifier": "every model, every sequence with positive likelihood, every time index and state", "why_tests_cant": "Marginals are sums over exponentially many paths; only the forward-backward identity, for all t, establishes it.", "anchors": ["ext/_hmmc.cpp:backward_log", "ext/_hmmc.cpp:backward_scaling", "src/hmmlearn/base.py:_compute_posteriors_log", "src/hmmlearn/base.py:_compute_posteriors_scaling", "src/hmmlearn/base.py:predict_proba"]}
{"id": "C05", "title": "Posterior rows are probability distributions, and exactly when", "statement": "If a sequence has positive likelihood every row of predict_proba is non-negative and sums to 1. If it has zero likelihood and n_components >= 2, the log implementation returns NaN in every entry of that sequence's rows and score -inf, while the scaling implementation raises.", "quantifier": "every model and sequence, including those of zero likelihood", "why_tests_cant": "The zero-likelihood region is measure-zero for random tests, yet reachable with left-right models.", "anchors": ["src/hmmlearn/utils.py:log_normalize", "src/hmmlearn/utils.py:normalize", "src/hmmlearn/base.py:_compute_posteriors_log"]}
{"id": "C06", "title": "Expected transition counts are exact", "statement": "The transition statistics accumulated by one E-step are the posterior expected number of i->j transitions: the sum over t of the weight of the paths with z_t=i, z_{t+1}=j over the total weight, for both implementations.", "quantifier": "every model, every sequence of length >= 1 with positive likelihood, every pair of states", "why_tests_cant": "Sum over exponentially many paths, for all lengths.", "anchors": ["ext/_hmmc.cpp:compute_log_xi_sum", "ext/_hmmc.cpp:compute_scaling_xi_sum", "src/hmmlearn/base.py:_accumulate_sufficient_statistics_log", "src/hmmlearn/base.py:_accumulate_sufficient_statistics_scaling"]}
{"id": "C07", "title": "E-step bookkeeping is consistent", "statement": "Summed over destination states, expected transitions out of i equal the expected visits to i at all but the last time; summed over source states they equal the expected visits at all but the first time; the total is n_samples-1 per sequence, and the start statistics sum to the number of sequences.", "quantifier": "every model and list of sequences with positive likelihood", "why_tests_cant": "An identity over all inputs that finite samples only illustrate.", "anchors": ["src/hmmlearn/base.py:_accumulate_sufficient_statistics_log", "ext/_hmmc.cpp:compute_log_xi_sum"]}
{"id": "C08", "title": "Viterbi decoding is globally optimal", "statement": "decode(X, algorithm='viterbi') returns a state sequence whose joint weight is at least that of every other state sequence, and the returned log_prob is exactly the log of that weight.", "quantifier": "every model, every sequence of length >= 1, every competing state path", "why_tests_cant": "Optimality quantifies over n_components**n_samples paths.", "anchors": ["ext/_hmmc.cpp:viterbi", "src/hmmlearn/base.py:_decode_viterbi"]}
{"id": "C09", "title": "Viterbi optimality survives rounding", "statement": "If floating-point addition is only assumed monotone in its first argument (true of IEEE round-to-nearest without NaN), the path returned by viterbi still maximises the score as the program itself would evaluate it left to right, and the returned log_prob is bit-for-bit that evaluation.", "quantifier": "every totally ordered number type with a bottom and a left-monotone addition, every model and path", "why_tests_cant": "A statement about all rounding behaviours.", "anchors": ["ext/_hmmc.cpp:viterbi"]}
{"id": "C10", "title": "Viterbi output is well-formed and feasible", "statement": "The decoded sequence has one entry per sample, each in range(n_components); if the sequence has positive likelihood the decoded path never uses a zero start probability, zero transition or zero emission.", "quantifier": "every model and sequence", "why_tests_cant": "Feasibility for every zero pattern and every tie.", "anchors": ["ext/_hmmc.cpp:viterbi", "src/hmmlearn/base.py:decode"]}
{"id": "C11", "title": "Viterbi and forward scores bracket each other", "statement": "decode(viterbi).log_prob <= score(X) <= decode(viterbi).log_prob + n_samples*log(n_components).", "quantifier": "every model and sequence with positive likelihood", "why_tests_cant": "Inequality over all inputs.", "anchors": ["ext/_hmmc.cpp:viterbi", "ext/_hmmc.cpp:forward_log"]}
{"id": "C12", "title": "MAP decoding is pointwise optimal", "statement": "decode(X, algorithm='map') returns, at each time, the smallest-index state of maximal posterior; consequently it maximises the posterior expected number of correctly labelled samples among all label sequences.", "quantifier": "every model, every sequence with positive likelihood, every competing labelling", "why_tests_cant": "Quantifies over all labellings.", "anchors": ["src/hmmlearn/base.py:_decode_map"]}
{"id": "C13", "title": "What decode(algorithm='map') reports as log_prob", "statement": "The documentation promises 'Log probability of the produced state sequence'. For 'map' the code returns the sum over t of the maximal posterior, a number in [n_samples/n_components, n_samples]; the documented claim is false for it.", "quantifier": "every model and sequence with positive likelihood", "why_tests_cant": "Shows the documented contract is violated on every input with more than zero samples.", "anchors": ["src/hmmlearn/base.py:_decode_map", "src/hmmlearn/base.py:decode"]}
{"id": "C14", "title": "Sequences given through lengths are independent", "statement": "score with lengths is the sum of the scores of the individual sequences; predict_proba and decode are the concatenations of the per-sequence results; lengths=None is the same as lengths=[n_samples]; the result on one sequence does not depend on the other sequences.", "quantifier": "every list of sequences, every model, both implementations and both decoders", "why_tests_cant": "Quantifies over all ways of cutting the data.", "anchors": ["src/hmmlearn/_utils.py:split_X_lengths", "src/hmmlearn/base.py:_score_log", "src/hmmlearn/base.py:decode"]}
{"id": "C15", "title": "lengths partitions the data or is rejected", "statement": "For non-negative lengths, the data are cut into consecutive blocks of exactly those lengths whose concatenation is X if the lengths sum to n_samples, and a ValueError is raised otherwise. (With negative lengths the code silently duplicates samples; it never loses one.)", "quantifier": "every X and every list of integer lengths", "why_tests_cant": "All lists of lengths; negative entries exercise Python slice semantics.", "anchors": ["src/hmmlearn/_utils.py:split_X_lengths"]}
{"id": "C16", "title": "Zero-length sequences reach undefined behaviour", "statement": "A zero entry in lengths is accepted by validation and passes an empty sequence to the C++ kernels, which then index row 0 / row -1 of an empty array; with all lengths positive every kernel is called on at least one row.", "quantifier": "every list of non-negative lengths summing to n_samples", "why_tests_cant": "Out-of-bounds accesses do not reliably fail a test.", "anchors": ["src/hmmlearn/_utils.py:split_X_lengths", "ext/_hmmc.cpp:forward_log", "ext/_hmmc.cpp:forward_scaling", "ext/_hmmc.cpp:backward_log", "ext/_hmmc.cpp:viterbi"]}
{"id": "C17", "title": "Kernel shape checks are exactly the needed ones", "statement": "Each kernel raises a shape ValueError iff the dimensions and shapes of startprob/transmat/lattices/scaling do not match the frame array. When it does not, every array access is within bounds and reads memory that was written, provided there is at least one frame and (for the log kernels and Viterbi, which take a maximum over states) at least one state; the values are then those of the kernel's recursion. Without frames (all kernels but compute_scaling_xi_sum), or without states (forward_log, compute_log_xi_sum, viterbi), an access is out of bounds.", "quantifier": "every combination of array shapes", "why_tests_cant": "All shapes; memory safety is not observable by examples.", "anchors": ["ext/_hmmc.cpp:forward_scaling", "ext/_hmmc.cpp:forward_log", "ext/_hmmc.cpp:backward_scaling", "ext/_hmmc.cpp:backward_log", "ext/_hmmc.cpp:viterbi", "ext/_hmmc.cpp:compute_log_xi_sum"]}
{"id": "C18", "title": "The M-step produces distributions", "statement": "After one EM update with non-negative statistics, startprob_ is non-negative and sums to 1 provided some allowed entry of prior-1+statistics is positive; each row of transmat_ is non-negative and either sums to 1 or is entirely zero. If no start entry is positive, startprob_ becomes NaN.", "quantifier": "every prior, every statistics, every previous parameters", "why_tests_cant": "All real inputs, including degenerate ones.", "anchors": ["src/hmmlearn/base.py:BaseHMM._do_mstep", "src/hmmlearn/utils.py:normalize"]}
{"id": "C19", "title": "Forbidden states and transitions stay forbidden", "statement": "A zero in startprob_ or transmat_ at the start of EM is still zero after any number of EM iterations, whatever the priors and the data (left-right topologies are preserved).", "quantifier": "every model, data set, prior and number of iterations", "why_tests_cant": "Invariant over unbounded iteration counts.", "anchors": ["src/hmmlearn/base.py:BaseHMM._do_mstep", "src/hmmlearn/base.py:_AbstractHMM.fit"]}
{"id": "C20", "title": "params gates what EM may change", "statement": "A parameter whose code is not in params keeps its value through the whole EM loop, whatever the data, for each emission family.", "quantifier": "every subset of parameter codes, every data set, every number of iterations", "why_tests_cant": "Invariant over all iterations and subsets.", "anchors": ["src/hmmlearn/base.py:BaseHMM._do_mstep", "src/hmmlearn/hmm.py:CategoricalHMM._do_mstep", "src/hmmlearn/hmm.py:GaussianHMM._do_mstep", "src/hmmlearn/hmm.py:PoissonHMM._do_mstep"]}
{"id": "C21", "title": "EM never decreases the likelihood (CategoricalHMM)", "statement": "With the default flat priors, every EM iteration of CategoricalHMM yields parameters whose log-likelihood on the training sequences is at least the previous one, for any subset of params; hence monitor_.history is non-decreasing.", "quantifier": "every model with positive training likelihood, every multi-sequence data set, any number of iterations, both implementations", "why_tests_cant": "The Baum-Welch monotonicity theorem; tests check a few random runs with tolerance.", "anchors": ["src/hmmlearn/base.py:_AbstractHMM.fit", "src/hmmlearn/base.py:BaseHMM._do_mstep", "src/hmmlearn/hmm.py:CategoricalHMM._do_mstep"]}
{"id": "C22", "title": "EM never decreases the likelihood (PoissonHMM, MultinomialHMM, GaussianHMM)", "statement": "With flat priors, one EM iteration of PoissonHMM, MultinomialHMM and of GaussianHMM with diagonal covariance does not decrease the log-likelihood when every state keeps positive expected occupancy (and positive variance).", "quantifier": "every model and data set with positive occupancy", "why_tests_cant": "Inequality over all real data.", "anchors": ["src/hmmlearn/hmm.py:PoissonHMM._do_mstep", "src/hmmlearn/hmm.py:MultinomialHMM._do_mstep", "src/hmmlearn/hmm.py:GaussianHMM._do_mstep"]}
{"id": "C23", "title": "fit terminates and its history is exact", "statement": "fit performs at most min(n_iter, monitor n_iter) iterations; it performs one parameter update per iteration; monitor_.history has one entry per iteration, and entry k is the log-likelihood under the parameters after k updates; fit stops at the first k>=1 whose gain is below tol, or at the iteration cap.", "quantifier": "every data set, tol, n_iter and emission family", "why_tests_cant": "Quantifies over all runs.", "anchors": ["src/hmmlearn/base.py:ConvergenceMonitor", "src/hmmlearn/base.py:_AbstractHMM.fit"]}
{"id": "C24", "title": "Changing n_iter/tol after construction", "statement": "fit reads n_iter and tol from the monitor built in the constructor: assigning n_iter on the estimator afterwards can lower the number of iterations but can never raise it above the constructor value (if that was at least 1; an estimator constructed with n_iter=0 is not capped), and assigning tol has no effect.", "quantifier": "every pair of constructor / later values and every data set", "why_tests_cant": "All runs.", "anchors": ["src/hmmlearn/base.py:BaseHMM.__init__", "src/hmmlearn/base.py:_AbstractHMM.fit", "src/hmmlearn/base.py:ConvergenceMonitor.converged"]}
{"id": "C25", "title": "init_params gates initialisation", "statement": "fit overwrites a parameter before the first iteration iff its code is in init_params or the parameter was never set; otherwise the user's value is the starting point.", "quantifier": "every subset of codes and set attributes", "why_tests_cant": "All combinations.", "anchors": ["src/hmmlearn/base.py:_needs_init", "src/hmmlearn/base.py:BaseHMM._init"]}
{"id": "C26", "title": "fit is independent of the implementation choice", "statement": "If the scaling implementation does not raise, a whole fit performs the same number of iterations, records the same history and ends with the same parameters as with implementation='log'.", "quantifier": "every data set, model and number of iterations", "why_tests_cant": "Program equivalence over unbounded executions.", "anchors": ["src/hmmlearn/base.py:_do_estep", "src/hmmlearn/base.py:BaseHMM._fit_log", "src/hmmlearn/base.py:BaseHMM._fit_scaling"]}
{"id": "C27", "title": "fit does not depend on the order of the sequences", "statement": "Permuting the training sequences (with lengths) changes neither the E-step statistics nor the log-likelihood, hence not the result of EM from the same starting point.", "quantifier": "every permutation of every list of sequences", "why_tests_cant": "All permutations.", "anchors": ["src/hmmlearn/base.py:_do_estep"]}
{"id": "C28", "title": "A fitted model may be unusable", "statement": "After fit, score/decode/predict do not raise a parameter error if every state has positive expected occupancy before the last sample; otherwise EM can leave an all-zero transmat_ row and every later score/decode raises ValueError.", "quantifier": "every fit outcome", "why_tests_cant": "The failure set is reached only by particular data.", "anchors": ["src/hmmlearn/base.py:BaseHMM._do_mstep", "src/hmmlearn/base.py:_check_sum_1", "src/hmmlearn/utils.py:normalize"]}
{"id": "C29", "title": "Dirichlet MAP update is optimal", "statement": "For priors >= 1 the start/transition/emission update maximises expected log-likelihood plus log prior among all distributions, and for priors < 1 clipped entries are set to zero; hence EM never decreases the penalised likelihood.", "quantifier": "every prior >= 1 and every statistics", "why_tests_cant": "Optimality over a continuum of competitors.", "anchors": ["src/hmmlearn/base.py:BaseHMM._do_mstep", "src/hmmlearn/hmm.py:CategoricalHMM._do_mstep"]}
{"id": "C30", "title": "What parameter validation accepts", "statement": "score/decode/sample accept startprob_ and transmat_ iff they have the right shape (of startprob_ only the first axis is checked) and each distribution sums to 1 within |s-1| <= 1e-8+1e-5; in particular negative probabilities are accepted, and all-valid distributions are always accepted.", "quantifier": "every real vector and matrix", "why_tests_cant": "All shapes and values.", "anchors": ["src/hmmlearn/base.py:BaseHMM._check", "src/hmmlearn/base.py:_check_sum_1"]}
{"id": "C31", "title": "CategoricalHMM.fit validates symbols", "statement": "fit raises ValueError iff X is non-integral, contains a negative symbol, or contains a symbol >= n_features when n_features is set; otherwise after fit every symbol is < n_features, and an unset n_features becomes max+1.", "quantifier": "every integer data set and n_features", "why_tests_cant": "All data.", "anchors": ["src/hmmlearn/_emissions.py:BaseCategoricalHMM._check_and_set_n_features"]}
{"id": "C32", "title": "Symbol lookup outside fit", "statement": "score/decode do not validate symbols: a symbol >= n_features (or < -n_features) raises IndexError, a symbol in [-n_features, -1] silently wraps to n_features+symbol, other symbols select their emission column.", "quantifier": "every integer symbol and emission matrix", "why_tests_cant": "All integers.", "anchors": ["src/hmmlearn/_emissions.py:BaseCategoricalHMM._compute_likelihood"]}
{"id": "C33", "title": "MultinomialHMM trial-count validation", "statement": "fit raises ValueError iff counts are non-integral or negative or some row sum differs from n_trials; if n_trials was unset it becomes the per-row totals, so a later fit on the same estimator accepts only data with those totals.", "quantifier": "every count matrix and n_trials", "why_tests_cant": "All data.", "anchors": ["src/hmmlearn/_emissions.py:BaseMultinomialHMM._check_and_set_n_features"]}
{"id": "C34", "title": "Learned n_features is sticky", "statement": "Once fitted, refitting the same estimator on data with more symbols (CategoricalHMM) or another number of columns (other models) raises ValueError; it never silently mixes dimensions.", "quantifier": "every history of fit calls", "why_tests_cant": "All histories.", "anchors": ["src/hmmlearn/base.py:_check_and_set_n_features", "src/hmmlearn/_emissions.py:BaseCategoricalHMM._check_and_set_n_features"]}
{"id": "C35", "title": "Covariance setter validation", "statement": "Assigning covars_ succeeds iff the shape fits the covariance type and values are positive (spherical, diag) / symmetric positive definite (tied, full); hence a stored covariance is always usable as a Gaussian covariance.", "quantifier": "every covariance array and type", "why_tests_cant": "All matrices.", "anchors": ["src/hmmlearn/_utils.py:_validate_covars", "src/hmmlearn/hmm.py:GaussianHMM.covars_"]}
{"id": "C36", "title": "sample returns well-formed sequences", "statement": "sample(n) returns max(n,1) observations and as many states, all in range(n_components); with currstate given the first state is currstate. (In particular sample(0) returns one sample.)", "quantifier": "every n, every model, every random stream", "why_tests_cant": "All streams.", "anchors": ["src/hmmlearn/base.py:_AbstractHMM.sample"]}
{"id": "C37", "title": "sample draws from the model's distribution", "statement": "For independent uniform draws, the probability that sample(n) produces the state path z is startprob[z0] * product of transmat[z_t, z_{t+1}].", "quantifier": "every path, length and stochastic model", "why_tests_cant": "A distributional identity cannot be established by finite sampling.", "anchors": ["src/hmmlearn/base.py:_AbstractHMM.sample"]}
{"id": "C38", "title": "sample never takes an impossible step", "statement": "If the current row of transmat_ sums to at least 1 and the uniform draw is in [0,1), the next state has positive transition probability; if the row is all zero (as EM may leave it) sample silently moves to state 0.", "quantifier": "every row, draw and history", "why_tests_cant": "All draws.", "anchors": ["src/hmmlearn/base.py:_AbstractHMM.sample"]}
{"id": "C39", "title": "Seeding", "statement": "sample with an integer seed is a function of the seed. CategoricalHMM/MultinomialHMM/PoissonHMM.fit overwrite the integer seed stored on the estimator by a generator object, so a second fit on the same estimator starts from a different random state than the first.", "quantifier": "every seed and history of calls", "why_tests_cant": "All histories.", "anchors": ["src/hmmlearn/hmm.py:CategoricalHMM._init", "src/hmmlearn/hmm.py:PoissonHMM._init", "src/hmmlearn/base.py:_AbstractHMM.sample"]}
{"id": "C40", "title": "Gaussian log-density: diag/spherical/tied/full agree", "statement": "The diagonal log-density is the log of the product of univariate normal densities; the spherical, tied and full variants give the same value on the corresponding expanded covariance (fill_covars).", "quantifier": "every dimension, mean, positive variance and data point", "why_tests_cant": "All reals.", "anchors": ["src/hmmlearn/stats.py:_log_multivariate_normal_density_diag", "src/hmmlearn/stats.py:_log_multivariate_normal_density_spherical", "src/hmmlearn/stats.py:_log_multivariate_normal_density_full", "src/hmmlearn/utils.py:fill_covars"]}
{"id": "C41", "title": "Gaussian log-density: full covariance", "statement": "For symmetric positive definite covariance the computed value equals -1/2(n log 2pi + log det Sigma + (x-mu)^T Sigma^-1 (x-mu)).", "quantifier": "every dimension, every positive definite matrix", "why_tests_cant": "All matrices.", "anchors": ["src/hmmlearn/stats.py:_log_multivariate_normal_density_full"]}
{"id": "C42", "title": "GMM emission likelihood and responsibilities", "statement": "The GMMHMM frame log-likelihood is the log of the weighted sum of component densities, and the per-frame mixture responsibilities used in the E-step are non-negative and sum to the state posterior.", "quantifier": "every mixture, state and frame with positive mixture density", "why_tests_cant": "All reals.", "anchors": ["src/hmmlearn/_emissions.py:BaseGMMHMM._compute_log_likelihood", "src/hmmlearn/_emissions.py:BaseGMMHMM._accumulate_sufficient_statistics"]}
{"id": "C43", "title": "GMM weight update", "statement": "After an M-step each row of weights_ sums to 1 (when its denominator is non-zero) and is non-negative for weights_prior >= 1.", "quantifier": "every statistics produced by an E-step, every prior", "why_tests_cant": "All inputs.", "anchors": ["src/hmmlearn/hmm.py:GMMHMM._do_mstep"]}
{"id": "C44", "title": "Gaussian M-step yields valid covariances", "statement": "With means re-estimated, the diag/spherical covariance update is positive for positive covars_prior and the tied/full update is symmetric positive semidefinite; with zero prior weight the new mean is the posterior-weighted average of the data and lies in its per-coordinate range.", "quantifier": "every data set, posterior and prior weight >= 0", "why_tests_cant": "All reals.", "anchors": ["src/hmmlearn/hmm.py:GaussianHMM._do_mstep", "src/hmmlearn/_emissions.py:BaseGaussianHMM._accumulate_sufficient_statistics"]}
{"id": "C45", "title": "Fixing the means while fitting covariances", "statement": "With params containing 'c' but not 'm' the covariances should be re-estimated as the weighted scatter about the fixed means. GaussianHMM violates this: occupancy statistics are not accumulated and the result is (covars_prior + sum of post*x^2 + prior term)/1e-5 (diag, default covars_weight).", "quantifier": "every data set", "why_tests_cant": "The wrong values are finite and plausible; no test fits 'c' without 'm' and checks the value.", "anchors": ["src/hmmlearn/hmm.py:GaussianHMM._do_mstep", "src/hmmlearn/hmm.py:GaussianHMM._needs_sufficient_statistics_for_mean"]}
{"id": "C46", "title": "GMM default covariance priors", "statement": "The default covariance priors of GMMHMM make the covariance update the maximum-likelihood one (denominator equal to the component's effective count). True for full, tied and diag; false for spherical unless n_mix == n_features, where the denominator can even be negative.", "quantifier": "every n_mix, n_features and statistics", "why_tests_cant": "All sizes.", "anchors": ["src/hmmlearn/hmm.py:GMMHMM._init_covar_priors", "src/hmmlearn/hmm.py:GMMHMM._do_mstep"]}
{"id": "C47", "title": "Poisson update", "statement": "With zero prior the new rate of a state is its posterior-weighted mean count. With a Gamma prior the documented posterior mean uses the state's own effective count; the code weighs every state by the total count, so it agrees only when it is the single state (or the prior is zero).", "quantifier": "every prior and statistics", "why_tests_cant": "All reals.", "anchors": ["src/hmmlearn/hmm.py:PoissonHMM._do_mstep"]}
{"id": "C48", "title": "Categorical emission update", "statement": "After an M-step each emissionprob_ row is non-negative and sums to 1 or is all zero; with flat priors entry (i,k) is the expected number of times state i emitted k over the expected number of visits to i; repeated symbols within a sequence are all counted.", "quantifier": "every data set and posterior", "why_tests_cant": "All data.", "anchors": ["src/hmmlearn/_emissions.py:BaseCategoricalHMM._accumulate_sufficient_statistics", "src/hmmlearn/hmm.py:CategoricalHMM._do_mstep"]}
{"id": "C49", "title": "normalize", "statement": "normalize(a, axis=1) makes each row sum to 1, leaves all-zero rows zero, is idempotent and scale-invariant; normalize(a) has no zero guard (0/0 = NaN), and neither has axis=0.", "quantifier": "every array", "why_tests_cant": "All arrays.", "anchors": ["src/hmmlearn/utils.py:normalize"]}
{"id": "C50", "title": "log_normalize", "statement": "log_normalize(a, axis=1) makes exp of each row sum to 1 when the row has a finite entry and no NaN/+inf, is invariant under adding a constant to the row, and gives NaN on an all -inf row unless the row has one entry.", "quantifier": "every array", "why_tests_cant": "All arrays.", "anchors": ["src/hmmlearn/utils.py:log_normalize"]}
{"id": "C51", "title": "AIC/BIC parameter counts", "statement": "aic = -2*score + 2k and bic = -2*score + k*log(n_samples), where k is the dimension of the parameter space. The count k is right for Categorical, Multinomial, Poisson and Gaussian (all covariance types) and wrong for GMMHMM (mixture weights are counted once instead of once per state).", "quantifier": "every n_components, n_features, n_mix", "why_tests_cant": "All sizes.", "anchors": ["src/hmmlearn/_emissions.py:_get_n_fit_scalars_per_param", "src/hmmlearn/base.py:BaseHMM.aic", "src/hmmlearn/base.py:BaseHMM.bic"]}
{"id": "C52", "title": "Stationary distribution", "statement": "If the eigen-solver returns a complete set of eigenpairs and 1 is a simple eigenvalue, get_stationary_distribution returns a vector that sums to 1, is invariant under transmat_ and is non-negative.", "quantifier": "every stochastic matrix with simple eigenvalue 1", "why_tests_cant": "All matrices.", "anchors": ["src/hmmlearn/base.py:BaseHMM.get_stationary_distribution"]}
{"id": "C53", "title": "Variational M-step is the conjugate update", "statement": "After each variational update, posterior concentrations are prior + expected counts; they stay positive for positive priors, and their totals are prior total + number of sequences (start), + number of transitions (trans).", "quantifier": "every prior > 0, data set and number of iterations", "why_tests_cant": "Invariant over iterations.", "anchors": ["src/hmmlearn/base.py:VariationalBaseHMM._do_mstep", "src/hmmlearn/vhmm.py:VariationalCategoricalHMM._do_mstep"]}
{"id": "C54", "title": "Variational models expose valid point parameters", "statement": "After a variational fit with n_iter>=1 and params containing s,t,(e), startprob_, transmat_ and emissionprob_ are strictly positive and sum to 1, so score/decode/sample accept them. If 's' is not in params (or n_iter=0) startprob_ is never set and score raises NotFittedError.", "quantifier": "every prior > 0 and data", "why_tests_cant": "All runs.", "anchors": ["src/hmmlearn/base.py:VariationalBaseHMM._do_mstep", "src/hmmlearn/vhmm.py:VariationalCategoricalHMM._do_mstep", "src/hmmlearn/base.py:_score"]}
{"id": "C55", "title": "The variational lower bound never decreases", "statement": "For VariationalCategoricalHMM, the lower bound reported at successive iterations is non-decreasing.", "quantifier": "every positive prior, positive starting posterior, data set and number of iterations", "why_tests_cant": "Convex-analysis theorem over all inputs; tests check few runs with tolerance.", "anchors": ["src/hmmlearn/base.py:VariationalBaseHMM._compute_lower_bound", "src/hmmlearn/vhmm.py:VariationalCategoricalHMM._compute_lower_bound", "src/hmmlearn/base.py:VariationalBaseHMM._estep_begin"]}
{"id": "C56", "title": "KL divergences are non-negative and vanish at equality", "statement": "kl_dirichlet, kl_normal_distribution, kl_multivariate_normal_distribution, kl_gamma_distribution and kl_wishart_distribution are >= 0 on valid parameters (so the asserts never fire) and 0 when both arguments coincide.", "quantifier": "all valid parameters of all dimensions", "why_tests_cant": "All reals.", "anchors": ["src/hmmlearn/_kl_divergence.py:kl_dirichlet", "src/hmmlearn/_kl_divergence.py:kl_normal_distribution", "src/hmmlearn/_kl_divergence.py:kl_multivariate_normal_distribution", "src/hmmlearn/_kl_divergence.py:kl_gamma_distribution", "src/hmmlearn/_kl_divergence.py:kl_wishart_distribution"]}
{"id": "C57", "title": "Variational E-step weights are sub-normalised", "statement": "The weights exp(digamma(a_i)-digamma(sum a)) used in the variational E-step are positive and sum to at most 1.", "quantifier": "every positive concentration vector", "why_tests_cant": "All reals.", "anchors": ["src/hmmlearn/base.py:VariationalBaseHMM._estep_begin"]}
{"id": "C58", "title": "Relabelling hidden states", "statement": "Permuting the states of the model permutes predict_proba columns and leaves score, Viterbi log_prob and EM history unchanged.", "quantifier": "every permutation and model", "why_tests_cant": "All permutations.", "anchors": ["ext/_hmmc.cpp:forward_log", "src/hmmlearn/base.py:score_samples"]}
{"id": "C59", "title": "score/decode/predict_proba/sample do not change the model", "statement": "Inference methods leave the model parameters unchanged, so any interleaving of inference calls gives the same answers as in isolation.", "quantifier": "every sequence of inference calls", "why_tests_cant": "All histories.", "anchors": ["src/hmmlearn/base.py:_AbstractHMM._score", "src/hmmlearn/base.py:decode", "src/hmmlearn/base.py:sample"]}
{"id": "C60", "title": "A fit that raises keeps the last completed iteration", "statement": "If the E-step of iteration k raises (scaling underflow), the estimator holds exactly the parameters after k completed updates and history has k entries.", "quantifier": "every data set, k and model", "why_tests_cant": "All crash points.", "anchors": ["src/hmmlearn/base.py:_AbstractHMM.fit", "ext/_hmmc.cpp:forward_scaling"]}
{"id": "C61", "title": "GaussianHMM.covars_ holds one covariance matrix per state", "statement": "For every covariance type, GaussianHMM.covars_ should have shape (n_components, n_features, n_features) with entry i the covariance of state i, also after fit. Violated for spherical with n_features >= 2: the M-step stores _covars_ with shape (n_components, n_features), fill_covars ravels it and returns n_components*n_features matrices, so covars_[i] (used by sample) is the covariance of state i // n_features.", "quantifier": "every covariance type, number of states and features, every fitted model", "why_tests_cant": "The existing tests read covars_ for spherical models only before fit or with shapes for which the ravelled array happens to be accepted; the indexing error needs two or more features and states with different variances.", "anchors": ["src/hmmlearn/hmm.py:294-305", "src/hmmlearn/hmm.py:360-369", "src/hmmlearn/utils.py:58-71", "src/hmmlearn/_emissions.py:178-181"]}
{"id": "C62", "title": "EM never decreases the likelihood (GMMHMM)", "statement": "With default priors, no iteration of GMMHMM.fit decreases the likelihood, although the covariance update uses the scatter about the old means and is therefore not the maximiser of the expected log-likelihood. Holds for diag, for full and tied while the new covariances are non-singular, and for spherical if n_mix == n_features.", "quantifier": "every data set, model with positive weights and occupied states, number of iterations, set of updated parameters", "why_tests_cant": "Inequality over all real data and whole runs.", "anchors": ["src/hmmlearn/hmm.py:GMMHMM._do_mstep", "src/hmmlearn/_emissions.py:BaseGMMHMM._accumulate_sufficient_statistics"]}
{"id": "C63", "title": "Variational fit without 't' ends in AttributeError", "statement": "If transmat_ has not been set and 't' is not in params, fit of a variational model with n_iter >= 2 never returns normally: after the first iteration (one update done, one value reported) it raises AttributeError when base.py reads self.transmat_ for its warning, unless the first iteration itself raised.", "quantifier": "every variational class, data set, prior and starting posterior", "why_tests_cant": "All classes, data and settings; the tests only use the default params.", "anchors": ["src/hmmlearn/base.py:_AbstractHMM.fit", "src/hmmlearn/base.py:VariationalBaseHMM._do_mstep"]}
{"id": "C64", "title": "sample emits from the distribution of the state", "statement": "When the library's multinomial, poisson and multivariate_normal draw from their documented distributions, the states and observations of sample(n) jointly follow the model: multinomial counts with the model's single n_trials (probability zero for any other total), independent Poisson columns, normal with means_[z] and covars_[z]. Samples of CategoricalHMM and of MultinomialHMM with a single n_trials pass the model's own validation; with differing n_trials sampling raises ValueError. The same holds for VariationalCategoricalHMM and VariationalGaussianHMM with their point parameters.", "quantifier": "every path, every observation or event, every model and length, every generator meeting its contract", "why_tests_cant": "A distributional identity cannot be established by finite sampling.", "anchors": ["src/hmmlearn/_emissions.py:_generate_sample_from_state", "src/hmmlearn/base.py:_AbstractHMM.sample"]}
{"id": "C65", "title": "Variational fit of VariationalGaussianHMM: conjugate updates, bound never decreases", "statement": "For every covariance type, after n iterations of fit the attributes beta_, means_, dof_, scale_posterior_ (and the Dirichlet concentrations) hold the normal-Wishart posteriors of n conjugate updates, _covars_ is scale/dof, the posteriors stay proper, the history holds the variational lower bounds and is non-decreasing, and with log and 't' in params fit returns. Requires 'm' in params if 'c' is.", "quantifier": "every proper prior and starting posterior of the shape of the covariance type, every data set, number of states, features and iterations, both implementations, every set of updated parameters", "why_tests_cant": "Inequality and refinement over whole runs on real data; tests run a few fits with a tolerance.", "anchors": ["src/hmmlearn/vhmm.py:VariationalGaussianHMM._compute_subnorm_log_likelihood", "src/hmmlearn/vhmm.py:VariationalGaussianHMM._do_mstep", "src/hmmlearn/vhmm.py:VariationalGaussianHMM._compute_lower_bound"]}
{"id": "C66", "title": "Updating variational covariances without means keeps a proper posterior", "statement": "fit of VariationalGaussianHMM with 'c' but not 'm' in params should leave a positive scale_posterior_. Violated: the M-step subtracts beta*m*m of the unchanged posterior means, which is only right for the updated ones, so scale_posterior_ and _covars_ become negative whenever beta*m^2 exceeds the prior terms plus the sum of squares of the data.", "quantifier": "every data set, prior and starting posterior with that excess (diag, one iteration)", "why_tests_cant": "The tests always update means and covariances together.", "anchors": ["src/hmmlearn/vhmm.py:VariationalGaussianHMM._do_mstep", "src/hmmlearn/vhmm.py:VariationalGaussianHMM._needs_sufficient_statistics_for_mean"]}
{"id": "C67", "title": "A fitted VariationalGaussianHMM scores with the posterior mean parameters", "statement": "After a fit that returned (n_iter >= 1, all parameters updated), start and transition probabilities are positive and sum to 1, the covariance matrices scale/dof are positive definite, and with log the score of any data is the finite log-likelihood under these parameters and the posterior means.", "quantifier": "every covariance type, proper prior, starting posterior, training data set and scored data set", "why_tests_cant": "All fitted models and data.", "anchors": ["src/hmmlearn/vhmm.py:VariationalGaussianHMM.means_", "src/hmmlearn/_emissions.py:BaseGaussianHMM._compute_log_likelihood", "src/hmmlearn/base.py:_AbstractHMM.score"]}
{"id": "C68", "title": "GMMHMM.sample on an accepted model", "statement": "A GMMHMM that _check accepts can be sampled from if the weights of each state are non-negative and sum to 1 within 2^-26. Violated beyond that: _check tolerates deviations of 1e-5 and negative weights, RandomState.choice does not, so sample of an accepted model (weights 0.5, 0.500005, or 2, -1) raises ValueError.", "quantifier": "every model passing validation, covariance type, number of samples, seed, currstate and state of the generator", "why_tests_cant": "The tests sample from models whose weights sum to 1 to rounding.", "anchors": ["src/hmmlearn/_emissions.py:BaseGMMHMM._generate_sample_from_state", "src/hmmlearn/hmm.py:GMMHMM._check"]}
{"id": "C69", "title": "Seeded initialisation of GMMHMM", "statement": "With an integer random_state, the initial means_ of GMMHMM depend on nothing but the estimator and the data, and np.random is left alone. Holds when every k-means cluster has at least n_mix samples; violated otherwise: the missing means of a small cluster are drawn from the global np.random, so the same seed and data start from different means_.", "quantifier": "every data set, covariance type, seed and state of the global generator", "why_tests_cant": "Tests seed the global generator or use clusters large enough.", "anchors": ["src/hmmlearn/hmm.py:GMMHMM._init"]}
{"id": "C70", "title": "GMMHMM hyper-parameters: broadcasting", "statement": "weights_prior, means_prior, means_weight, covars_prior, covars_weight are accepted exactly if they broadcast to the shapes of the covariance type, and are then replaced by the stretched arrays (ValueError otherwise; nothing else changes). Consequence: after a fit with more than one state, changing n_components to any other number makes the next fit raise, though the caller never gave an array.", "quantifier": "every shape of every hyper-parameter, every covariance type, n_components, n_mix, n_features", "why_tests_cant": "All shapes; the tests use scalars and matching arrays and never change n_components.", "anchors": ["src/hmmlearn/hmm.py:GMMHMM._fix_priors_shape", "src/hmmlearn/hmm.py:GMMHMM._init_covar_priors"]}
{"id": "C71", "title": "Methods of an estimator object answer for the model its attributes hold", "statement": "For an object of CategoricalHMM, MultinomialHMM, PoissonHMM, GaussianHMM (four covariance types) or GMMHMM (four covariance types) whose attributes hold non-negative startprob_, transmat_ rows summing to one within the tolerance of _check, and valid emission parameters: score returns the log-likelihood of the data under exactly that model (with scaling: or raises when a predictive probability underflows), predict_proba the smoothing posteriors, decode with 'viterbi' a most probable path of every sequence and the log of its joint weight, decode with 'map' the first most probable state at each time, predict the states of decode. The emission weight of the model is the textbook mass or density (probability of the symbol, multinomial mass, product of Poisson masses, normal density, mixture of normal densities).", "quantifier": "every object, number of states, features and mixture components, data set, split into sequences", "why_tests_cant": "Tests compare a few literals; here all attributes and all data go through _check, _check_fitted, array conversion and the kernels.", "anchors": ["src/hmmlearn/base.py:_AbstractHMM.score", "src/hmmlearn/base.py:_AbstractHMM.predict_proba", "src/hmmlearn/base.py:_AbstractHMM.decode", "src/hmmlearn/hmm.py", "src/hmmlearn/_emissions.py"]}
{"id": "C72", "title": "fit of a CategoricalHMM, PoissonHMM or MultinomialHMM object, from the call to the trained attributes", "statement": "For an object with flat priors, whatever its attributes hold (each of startprob_, transmat_, emission parameters is kept if set and not in init_params, and drawn otherwise): fit raises nothing unless a scaling pass underflows; training runs through models m_0..m_n with 1 <= n <= n_iter where m_0 is the kept or drawn model; afterwards the attributes hold m_n, monitor_.history holds the log-likelihoods of m_0..m_(n-1), the likelihood never decreases, the constructor arguments are unchanged, and if every state of m_0 can be left then score, predict_proba, decode and predict answer for m_n. In particular with the default init_params and implementation='log', fit returns and score(X) is at least every entry of monitor_.history.", "quantifier": "every object, data set (counts not all equal for PoissonHMM, some non-zero count for MultinomialHMM), split into sequences, n_iter, tol, params, init_params, generator with positive draws", "why_tests_cant": "Tests run a few seeds; the claim composes validation, initialisation, _check, the EM loop, the monitor and the scoring methods on all inputs.", "anchors": ["src/hmmlearn/base.py:_AbstractHMM.fit", "src/hmmlearn/base.py:BaseHMM._init", "src/hmmlearn/hmm.py:CategoricalHMM._init", "src/hmmlearn/hmm.py:PoissonHMM._init", "src/hmmlearn/hmm.py:MultinomialHMM._init"]}
{"id": "C73", "title": "fit of a GaussianHMM object, from the call to the trained attributes", "statement": "For a GaussianHMM object of any covariance type with flat chain priors and proper emission priors, whatever its attributes hold: means_ are kept if set and 'm' not in init_params and are otherwise the k-means centres; covariances are kept or taken from the unbiased sample covariance plus min_covar (its diagonal for diag, the mean of all its entries for spherical), which the setter accepts; the likelihood of the starting model is positive; fit raises nothing unless a scaling pass underflows; training runs through models m_0..m_n with 1 <= n <= n_iter, afterwards the attributes hold m_n, monitor_.history holds the log-likelihoods of m_0..m_(n-1), the log-likelihood plus log prior does not decrease at any step that respects the floor of the M-step (diag, spherical) or keeps the covariances non-singular (full, tied), the constructor arguments are unchanged, and if every state of m_0 can be left the methods answer for m_n. In particular with everything in init_params, implementation='log', n_components samples and a sequence of two samples, fit returns and score, predict_proba, decode and predict answer for the model the attributes hold.", "quantifier": "every object, covariance type, data set, split into sequences, n_iter, tol, params that do not ask for covariances without means, init_params, generator with positive draws, k-means with real centres", "why_tests_cant": "Tests run a few seeds of four covariance types; the claim composes validation, initialisation from the data, the covariance setter, _check, the EM loop, the monitor and the scoring methods on all inputs.", "anchors": ["src/hmmlearn/base.py:_AbstractHMM.fit", "src/hmmlearn/hmm.py:GaussianHMM._init", "src/hmmlearn/hmm.py:GaussianHMM._do_mstep", "src/hmmlearn/utils.py", "src/hmmlearn/_utils.py:distribute_covar_matrix_to_match_covariance_type"]}
{"id": "C74", "title": "fit of a GMMHMM object, from the call to the trained attributes", "statement": "For a GMMHMM object of any covariance type with flat priors (the defaults), whatever its attributes hold: the hyper-parameters are stretched to their shapes and keep their values; weights_ are kept if set and 'w' not in init_params and are otherwise 1/n_mix; means_ are kept or, for each state, the k-means centres of the samples nearest to the state's own k-means centre (normal draws around the mean of all centres if these are fewer than n_mix); covars_ are kept or taken from the sample covariance plus min_covar (its diagonal for diag, the mean of all its entries for spherical); _check accepts the result; fit raises nothing unless a scaling pass underflows; training runs through models m_0..m_n with 1 <= n <= n_iter, afterwards the attributes hold m_n, monitor_.history holds the log-likelihoods of m_0..m_(n-1), the likelihood does not decrease at any step (full, tied: any step whose new covariances are non-singular; spherical: if n_mix = n_features or covariances are not trained), the constructor arguments are unchanged, and if every state of m_0 can be left the object passes _check and the methods answer for m_n. In particular with everything in init_params, implementation='log', n_components samples and a sequence of two samples, fit returns and score, predict_proba, decode and predict answer for the model the attributes hold (spherical: for n_mix <= n_features).", "quantifier": "every object with default hyper-parameters, covariance type, n_mix, data set, split into sequences, n_iter, tol, params, init_params, generator with positive draws, k-means with real centres, normal draws with real values", "why_tests_cant": "Tests run a few seeds of four covariance types; the claim composes validation, broadcasting of the hyper-parameters, per-state clustering, _check, the EM loop, the monitor and the scoring methods on all inputs.", "anchors": ["src/hmmlearn/base.py:_AbstractHMM.fit", "src/hmmlearn/hmm.py:GMMHMM._init", "src/hmmlearn/hmm.py:GMMHMM._init_covar_priors", "src/hmmlearn/hmm.py:GMMHMM._fix_priors_shape", "src/hmmlearn/hmm.py:GMMHMM._check", "src/hmmlearn/hmm.py:GMMHMM._do_mstep"]}
{"id": "C75", "title": "score and posteriors with implementation='scaling' are backward-stable: rounding errors stay relative and are bounded", "statement": "In floating-point arithmetic whose operations, exp and log each have relative error at most u (IEEE double precision with u = 2^-53 as long as no result overflows or becomes subnormal): if the stored probabilities and the emission likelihoods have kp, ka, kb relative errors, then whenever score(X, lengths) with implementation='scaling' returns a number that is not NaN, the exact likelihood of the data is positive and the number differs from its logarithm by at most an explicit bound dataError, about u times (number of samples times sum of absolute log predictive probabilities plus number of roundings); score_samples' posteriors are the exact posteriors up to 2*steps+2 relative errors, each; every exact predictive probability of accepted data is at least 1e-300 up to the roundoff, and data whose predictive probabilities exceed 1e-300 by the roundoff are never rejected.", "quantifier": "every model, every emission class with relative-error likelihoods, every rounding with relative error u, every number of states, samples and sequences", "why_tests_cant": "Tests compare the two implementations with a tolerance on short sequences; the bound is for every length, model and direction of every single rounding.", "anchors": ["ext/_hmmc.cpp:forward_scaling", "ext/_hmmc.cpp:backward_scaling", "src/hmmlearn/base.py:_score_scaling", "src/hmmlearn/base.py:_compute_posteriors_scaling", "src/hmmlearn/utils.py:normalize"]}
{"id": "C76", "title": "Baum-Welch in floating-point arithmetic follows exact Baum-Welch, iteration by iteration", "statement": "In the arithmetic of C75, for fit of a CategoricalHMM with implementation='scaling' and priors at least one: as long as nothing becomes NaN, the parameters after k iterations are those of k exact EM iterations up to fitSteps k relative errors each (zeros stay exactly zero), the k-th entry of monitor_.history differs from the log-likelihood of the exact k-th iterate by at most an explicit bound, and with flat priors monitor_.history decreases at most by the sum of the two bounds. Where no result leaves the range, fit does not raise on data that the exact iterates predict with probability above 1e-300 and everything it computes is finite.", "quantifier": "every model, data set, split into sequences, number of iterations, params string, priors >= 1, rounding with relative error u", "why_tests_cant": "A test sees one history on one machine, and a tolerance hides whether a decrease is roundoff; the bound holds for every rounding and data set.", "anchors": ["src/hmmlearn/base.py:_do_estep", "src/hmmlearn/base.py:BaseHMM._do_mstep", "src/hmmlearn/hmm.py:CategoricalHMM._do_mstep", "src/hmmlearn/_emissions.py:BaseCategoricalHMM._accumulate_sufficient_statistics", "ext/_hmmc.cpp:compute_scaling_xi_sum", "src/hmmlearn/utils.py:normalize"]}
{"id": "C77", "title": "Viterbi in floating-point arithmetic returns a path whose exact probability is within an explicit roundoff of the largest", "statement": "In arithmetic with a monotone rounding of relative error u (absolute error eta where results underflow), for results of magnitude up to Omega: decode with algorithm='viterbi' returns for every sequence a path z such that for every path z' of positive probability, z has positive probability too and log P(z') <= log P(z) + err(z) + err(z'), where err is about (number of roundings) * u * (sum of the absolute logarithms along the path); the returned log-probability is the sum of log P(z) up to an explicit bound; data of probability zero give -inf. IEEE double precision with gradual underflow (u = 2^-53, eta = 2^-1075) is such a rounding: for a CategoricalHMM with up to 2^50 samples the loss is a relative (4n+6) 2^-53 of the log-probabilities.", "quantifier": "every model, emission class with accurate log-likelihoods, monotone rounding, number of states, samples and sequences, competing path", "why_tests_cant": "Tests compare one decoded path with an expected one; near-ties under rounding cannot be enumerated and a better path would have to be searched among nc^n.", "anchors": ["ext/_hmmc.cpp:viterbi", "src/hmmlearn/base.py:_decode_viterbi", "src/hmmlearn/base.py:decode", "src/hmmlearn/_emissions.py:BaseCategoricalHMM._compute_likelihood"]}
{"id": "C78", "title": "fit of a VariationalCategoricalHMM object trains by conjugate updates from what the constructor and the user set, and the fitted object answers for the posterior means", "statement": "For an object with positive prior and posterior concentrations (passed as None, a scalar, a row or an array where the code accepts it, or set as attributes and kept because init_params leaves them out): _init sets exactly the missing or requested concentrations, with the priors of the constructor and posteriors that carry as many pseudo-counts as there are sequences, and samples per state; fit then runs through conjugate updates (prior plus expected counts), raises only if implementation='scaling' underflows, stores the last posteriors, records non-decreasing lower bounds in monitor_.history, sets the point parameters to the means of the posteriors, and afterwards score, predict_proba, decode and predict answer for those. With default params, init_params and 'log' it always returns and every score is a number. The documented array as emissionprob_prior always makes fit raise.", "quantifier": "every data set and split into sequences, number of states and symbols, params, init_params, implementation, n_iter, earlier state of the object, generator with positive draws", "why_tests_cant": "A test fits a few seeds; here every starting point the generator can produce, every mixture of kept and initialised attributes and all lengths of training are covered.", "anchors": ["src/hmmlearn/vhmm.py:VariationalCategoricalHMM._init", "src/hmmlearn/vhmm.py:VariationalCategoricalHMM._check", "src/hmmlearn/base.py:VariationalBaseHMM._init", "src/hmmlearn/base.py:VariationalBaseHMM._check", "src/hmmlearn/base.py:fit"]}
{"id": "C79", "title": "fit of a VariationalGaussianHMM object trains by conjugate updates from KMeans clusters and what was passed or set, and the fitted object answers for the posterior means", "statement": "For each of the four covariance types and an object whose priors and kept posteriors are proper laws in arrays of the right shape (None, an array, or attributes kept because init_params leaves them out), if KMeans leaves no cluster empty and none with fewer samples than columns: _init sets exactly the missing or requested attributes (means at the KMeans centres, beta and degrees of freedom the cluster sizes, scale the degrees of freedom times the data covariance plus 1e-3 I in the part the type keeps); fit runs through conjugate normal-Wishart updates, raises only if implementation='scaling' underflows, stores the last posteriors in arrays of the type's shape, records non-decreasing lower bounds, sets startprob_, transmat_ and covars_ to the posterior means and S/nu, and afterwards score, predict_proba, decode and predict answer for that Gaussian HMM. With the default covariance priors, default params and 'log' it returns, the covariances are positive definite and every score is a number. If no sample is nearest to the last of at least two centres (constant data, for one) fit always raises, because np.bincount drops trailing zeros.", "quantifier": "every data set and split into sequences, number of states and columns, covariance type, params, init_params, implementation, n_iter, earlier state of the object, generator with positive draws, KMeans with real centres", "why_tests_cant": "Tests fit a few well-separated data sets with one seed; here every outcome of KMeans and of the draws, every mixture of kept and initialised attributes and every length of training are covered, and the raising theorem holds for all data with an empty last cluster.", "anchors": ["src/hmmlearn/vhmm.py:VariationalGaussianHMM._init", "src/hmmlearn/vhmm.py:VariationalGaussianHMM._check", "src/hmmlearn/vhmm.py:VariationalGaussianHMM._do_mstep", "src/hmmlearn/base.py:VariationalBaseHMM._init", "src/hmmlearn/base.py:fit"]}
{"id": "C80", "title": "Calls on a variational estimator: inference is pure, sample is well formed, and _check accepts exactly the right shapes", "statement": "For VariationalCategoricalHMM and VariationalGaussianHMM (four covariance types): score, score_samples, predict_proba, decode, predict and a seeded sample answer after any history of calls without fit, and whatever generators are held, as they would in isolation; such a history changes nothing on the object but its generator (and, for the categorical class, at most turns the emission concentrations into 2-d arrays and sets a missing n_features). sample returns as many states in range and rows as requested. Before startprob_ exists every inference call raises NotFittedError and changes nothing; afterwards what _check raises, every call raises. VariationalGaussianHMM._check accepts exactly the objects whose eight emission attributes have the shapes of the covariance type, and never looks at startprob_, transmat_ or their concentrations; VariationalCategoricalHMM._check accepts exactly concentrations of matching shapes. fit with another number of columns, or with symbols that are not integers, negative or too large, raises ValueError and leaves the object as it was. A prior passed to the constructor is accepted exactly when numpy broadcasts it to the shape needed (row of n_components, square), is read as numpy broadcasts, and otherwise makes fit raise ValueError. fit with n_iter=0 leaves what _init and _check left and an empty monitor_.history. _get_n_fit_scalars_per_param counts the entries of the posteriors that can be chosen.", "quantifier": "all objects (any attributes), all histories and calls, all inputs, any arithmetic, any generator", "why_tests_cant": "tests call methods in a few orders on a few fitted objects; purity and the exact accepted set range over all histories and all attribute values", "anchors": ["src/hmmlearn/base.py:209-448", "src/hmmlearn/base.py:1122-1150", "src/hmmlearn/vhmm.py:169-196", "src/hmmlearn/vhmm.py:583-650", "src/hmmlearn/_emissions.py:53-109", "src/hmmlearn/base.py:1051-1099", "src/hmmlearn/vhmm.py:564-581"]}
{"id": "C81", "title": "Scores and posteriors of the log implementation are accurate under rounding", "statement": "With implementation=\"log\" (the default), in arithmetic whose results are rounded monotonically with relative error u (absolute error eta where they underflow): score is -inf when some sequence is impossible, and otherwise differs from the sum of the exact log-likelihoods by at most n+2 step errors for each sequence of n+1 samples plus one rounding per addition, a step error being of the order of u times the largest logarithm; each posterior of a possible sequence is within a relative 4n+7 step errors (plus one underflow) of the exact one; and decode with algorithm=\"map\" returns at each time a state whose exact posterior is within twice that error of the largest one. For a CategoricalHMM in double precision with up to 1024 states, up to 2^17 samples and any probabilities doubles can hold, the score is within (n+1)(n+2) 2^-36 and each posterior within a relative (4n+7)(n+1) 2^-36.", "quantifier": "all models, all sequences, all monotone roundings with the stated accuracy (double precision among them); no bound on sizes other than that the accumulated error stays below one", "why_tests_cant": "tests compare the two implementations on a few small models with np.allclose; the bound covers every parameter value, including denormal probabilities and impossible states, and every length", "anchors": ["ext/_hmmc.cpp:17-28", "ext/_hmmc.cpp:104-138", "ext/_hmmc.cpp:174-205", "src/hmmlearn/base.py:253-271", "src/hmmlearn/base.py:294-298", "src/hmmlearn/base.py:513-521", "src/hmmlearn/utils.py:32-55"]}
{"id": "C82", "title": "Baum-Welch with the log implementation is accurate under rounding", "statement": "With implementation=\"log\" (the default), in arithmetic whose results are rounded monotonically with relative error u (absolute error eta where they underflow), an iteration of CategoricalHMM.fit from any probabilities the format holds, under which the data are possible, does not raise, reports the score, and replaces each parameter in params by that of one exact EM iteration from the same parameters: the pseudo-counts (expected counts plus prior minus one) and their totals carry an explicit relative error and an explicit underflow error, so each new probability whose row total is above the underflow error is accurate, it is exactly zero where the exact one is masked out, and rows without any count are zero; all other parameters are unchanged. Whatever the errors, the new parameters are probabilities the format holds. Hence along any number of iterations none of which reports -inf, every iteration is of this kind and its entry in monitor_.history is the log-likelihood of the parameters it started from, up to an explicit error; if fit raises, the data are impossible under the parameters reached. In double precision this holds for up to 1024 states, 2^20 symbols, 2^15 samples per sequence, 2^40 samples in all, with relative error 7(N+1)^2 2^-36 + (M+1+c) 2^-51 of the counts.", "quantifier": "all categorical models, all data sets, all params subsets, all priors at least one, all monotone roundings with the stated accuracy (double precision among them), any number of iterations; no bound on sizes other than that the accumulated error stays below one half", "why_tests_cant": "tests only check that the likelihood reported by a few fits does not decrease by more than a tolerance; they never compare a fitted parameter with the exact EM update, and rounding, underflow and logaddexp errors depend on the data", "anchors": ["ext/_hmmc.cpp:9-28", "ext/_hmmc.cpp:174-205", "ext/_hmmc.cpp:240-276", "src/hmmlearn/base.py:468-503", "src/hmmlearn/base.py:670-742", "src/hmmlearn/base.py:754-770", "src/hmmlearn/base.py:882-914", "src/hmmlearn/_emissions.py:91-107", "src/hmmlearn/hmm.py:150-155"]}
{"id": "C83", "title": "What fit writes to the log and when its warnings appear", "statement": "fit logs one \"not converging\" warning for each pair of consecutive entries of monitor_.history that drops by more than 2^-26, in order, and with verbose=True prints one line per iteration with its number, value and difference to the previous value (NaN at first); it logs the warning about zero rows iff the parameters after some iteration other than one that ended the loop have a row of transmat_ with zero sum; none of this affects the outcome. In exact arithmetic the \"not converging\" warning never appears for Categorical, Poisson and Multinomial models with flat priors nor for the variational models with any priors; for Gaussian and mixture models with flat priors it means that a state had fewer than 1e-5 expected visits or a new covariance was singular. In floating point it does not appear between iterations whose roundoff is below the threshold. It does appear for a MAP fit whose penalised likelihood increases (defect). With the flat transition prior a row is zero iff its state has no expected visit before the last samples; then fit warns unless n_iter=1, in which case it silently returns a model no later call accepts (defect).", "quantifier": "any arithmetic, emission family, data, starting point and monitor for the format of the log; all models, data sets, params subsets and both implementations for the warnings", "why_tests_cant": "the tests never look at the log of a successful fit; that a correct EM never triggers the warning is a statement about every data set and every iteration", "anchors": ["src/hmmlearn/base.py:ConvergenceMonitor.report", "src/hmmlearn/base.py:89-117", "src/hmmlearn/base.py:483-500"]}
{"id": "C84", "title": "The variational lower bound is below the log evidence", "statement": "For VariationalCategoricalHMM every value in monitor_.history is at most log p(X): the logarithm of the evidence, i.e. of the probability of the training data when start, transition and emission probabilities are drawn from their Dirichlet priors. The evidence is a positive probability, so no value is positive. The weights the E-step uses are exp E[ln p_i] and the point parameters left in the object are E[p_i], both expectations under the Dirichlet distribution of the posterior.", "quantifier": "all numbers of states and symbols, all positive priors and starting concentrations, all data sets, all params subsets, both implementations, any number of iterations; for the loop and for fit called on an object", "why_tests_cant": "the evidence is an integral over all models, which no test computes; the tests only compare consecutive values of the bound", "anchors": ["src/hmmlearn/base.py:1135-1271", "src/hmmlearn/vhmm.py:199-232", "src/hmmlearn/_kl_divergence.py:13-26", "src/hmmlearn/base.py:468-503"]}
{"id": "C85", "title": "With a positive tolerance training stops by itself", "statement": "The number of iterations fit makes is at most 2 + (B - x) / tol, where x is the first value reported and B a bound of all of them, whatever n_iter: B = 0 for Categorical models (with any priors at least one), Poisson and Multinomial models (flat priors), B = N nf / 2 log(2^1022 / 2 pi) for GaussianHMM with diagonal or spherical covariances and N samples of nf features (proper priors; the density code does not use variances below 2^-1022, so this holds even if a state collapses on one sample), B = log evidence for VariationalCategoricalHMM. If fit was allowed more iterations than that and did not raise, the last two values of the history differ by less than tol.", "quantifier": "all models of these families, data sets of positive likelihood, params subsets, both implementations, all n_iter, all tol > 0; for the loop itself any E- and M-step whose reported values are bounded", "why_tests_cant": "a test can observe that a few fits converge before n_iter; that every fit does within a computable number of iterations is a statement about all data sets and starting points", "anchors": ["src/hmmlearn/base.py:119-126", "src/hmmlearn/base.py:468-503", "src/hmmlearn/stats.py:47-56"]}
{"id": "C86", "title": "The KL functions compute Kullback-Leibler divergences", "statement": "kl_dirichlet, kl_normal_distribution, kl_multivariate_normal_distribution, kl_gamma_distribution and kl_wishart_distribution return (without an AssertionError) the Kullback-Leibler divergence, in the sense of measure theory (expectation of the log of the Radon-Nikodym derivative), between the Dirichlet, normal, multivariate normal, gamma and Wishart laws with the given parameters (gamma: shape and rate; normal: variance; multivariate normal: covariance matrix; Wishart: degrees of freedom and the inverse of the scale matrix). For one feature the Wishart law is the gamma law of shape dof/2 and rate scale/2. In particular the arguments are in the order (q, p) and parametrised as documented.", "quantifier": "all positive concentration vectors, means, positive variances, positive definite covariance matrices of any size, positive shapes and rates, positive definite scale matrices of any size n and degrees of freedom above n - 1; exact library routines (gammaln, digamma, inv, slogdet)", "why_tests_cant": "the tests compare with a few numerically estimated divergences; a closed form that is wrong in a term vanishing at the test arguments passes", "anchors": ["src/hmmlearn/_kl_divergence.py:13-26", "src/hmmlearn/_kl_divergence.py:29-35", "src/hmmlearn/_kl_divergence.py:38-62", "src/hmmlearn/_kl_divergence.py:65-77", "src/hmmlearn/_kl_divergence.py:80-117"]}
{"id": "C87", "title": "sample draws from the law whose density score evaluates", "statement": "For every fitted model and every number of samples n+1 there is a function f of the samples with score(X) = log f(X) for every X, such that the observations returned by sample(n+1) have density f with respect to the reference measure (counting measure for CategoricalHMM and PoissonHMM, counting measure on the vectors with total n_trials for MultinomialHMM, Lebesgue measure for GaussianHMM and GMMHMM with any covariance type); in particular exp(score) integrates to one. For a spherical GaussianHMM the variances are stored one per state (see C61 for the other layouts).", "quantifier": "all numbers of states, features, components and samples; all parameters whose probabilities sum to exactly one and whose covariances are proper (variances at least the smallest normal double, positive definite matrices); implementation log; generators whose draws have the documented laws; exact arithmetic", "why_tests_cant": "the tests compare a handful of sample means with the parameters; a sampler and a density that disagree (a scale used as a variance, a transposed covariance, the transition applied one step late) agree on such moments or on the tested models", "anchors": ["src/hmmlearn/base.py:209-232", "src/hmmlearn/base.py:398-455", "src/hmmlearn/_emissions.py:106-109", "src/hmmlearn/_emissions.py:178-182", "src/hmmlearn/_emissions.py:294-307", "src/hmmlearn/_emissions.py:363-368", "src/hmmlearn/_emissions.py:409-410"]}
{"id": "C88", "title": "The lower bound of VariationalGaussianHMM is below the log evidence", "statement": "For VariationalGaussianHMM with every covariance type, every value in monitor_.history is at most log p(X) + N*n_features/2*log(2 pi): p(X) is the evidence, the density of the N training samples when start and transition probabilities are drawn from their Dirichlet priors, precision matrices from Wishart laws (one matrix for all states if tied) and means from normal laws given the precisions; the second summand is the constant the code leaves out of every normal density. The evidence is positive and finite. With a positive tol, fit therefore stops by itself after at most 2 + (this bound - first value)/tol iterations.", "quantifier": "all numbers of states and features, all proper priors and starting posteriors of the shape the covariance type allows, all data sets, all params with 'm' if 'c', both implementations, any number of iterations; for the loop and for fit called on an object", "why_tests_cant": "the evidence is an integral over all means, precision matrices and transition probabilities, which no test computes; the tests only compare consecutive values of the bound, so a bound that is off by a data-dependent amount (a wrong divergence, one Wishart divergence counted per state for tied) passes", "anchors": ["src/hmmlearn/vhmm.py:657-695", "src/hmmlearn/vhmm.py:697-784", "src/hmmlearn/vhmm.py:786-838", "src/hmmlearn/_kl_divergence.py:13-117", "src/hmmlearn/base.py:1135-1271"]}
{"id": "C89", "title": "What the numbers of the Gaussian variational posterior stand for", "statement": "For VariationalGaussianHMM with posterior laws N(m, (beta Lambda)^-1) of the mean and Wishart(nu, S^-1) of the precision matrix Lambda: the log-weights the E-step uses are the posterior averages of the log density of each sample, up to the constant n_features/2 log(2 pi); the emission term of the lower bound is minus the sum over the states of the average over Lambda of KL(law of the mean given Lambda, prior law given Lambda), although the code evaluates one divergence at the average of Lambda, plus KL of the Wishart laws, which is counted once if the matrix is tied; means_ is the posterior average of the mean and covars_ the inverse of the average precision matrix.", "quantifier": "all numbers of states and features, all proper posteriors and priors of the shape the covariance type allows, all samples, all four covariance types; exact library routines and exact arithmetic", "why_tests_cant": "the averages are integrals over all positive definite matrices; the tests compare lower bounds of one implementation with stored numbers of the same implementation", "anchors": ["src/hmmlearn/vhmm.py:657-695", "src/hmmlearn/vhmm.py:697-784", "src/hmmlearn/vhmm.py:786-838", "src/hmmlearn/_kl_divergence.py:29-117"]}
{"id": "C90", "title": "With one component the variational models are exact after one iteration", "statement": "For VariationalCategoricalHMM(n_components=1) with 'e' in params, and VariationalGaussianHMM(n_components=1) with 'm' and 'c' in params and covariance_type full or tied (or any type if there is one feature): every value in monitor_.history but the first is exactly the log evidence of the data (plus the constant of C88 for Gaussian emissions), whatever the starting posterior; the emission posterior after fit is the exact conjugate posterior (prior concentrations plus symbol counts; normal-Wishart with precision beta0+N, the weighted mean, nu0+N and the scatter about it); with a positive tol fit makes at most three iterations.", "quantifier": "all numbers of symbols and features, all proper priors and starting posteriors, all data sets, both implementations, all n_iter", "why_tests_cant": "it compares the reported number with an integral over all parameters; no test has a reference value for the bound other than the code itself", "anchors": ["src/hmmlearn/vhmm.py:170-232", "src/hmmlearn/vhmm.py:657-838", "src/hmmlearn/base.py:1135-1271", "src/hmmlearn/_kl_divergence.py:13-117"]}
{"id": "C91", "title": "A small gain of an EM iteration means a small step", "statement": "For CategoricalHMM.fit with priors of at least one, every iteration increases the penalised log-likelihood by at least the sum over the rows of startprob_, transmat_ and emissionprob_ of the number of (pseudo-)observations behind the row times the squared Hellinger distance between the old and the new row. With flat priors the lengths of all steps of a run, however long, add up to at most -log L of the starting parameters, the lengths of the steps tend to zero, and when fit stops because of tol the step between the last two recorded iterates was shorter than tol.", "quantifier": "all model sizes, all priors >= 1, all starting parameters that give the data positive probability, all data sets, both implementations, all params strings, all n_iter", "why_tests_cant": "tests observe that the history is non-decreasing on a few data sets; that a small increase implies that the parameters have hardly moved needs an inequality over all models", "anchors": ["src/hmmlearn/base.py:120-127", "src/hmmlearn/base.py:484-501", "src/hmmlearn/base.py:891-912", "src/hmmlearn/hmm.py:150-155"]}
{"id": "C92", "title": "Training approaches the solutions of the likelihood equations", "statement": "For CategoricalHMM.fit with flat priors: the parameters solve the likelihood equations (every trained row times the number of observations behind it equals the expected counts under the parameters themselves) up to 2 sqrt(n_samples * length of the next step); when fit stops because of tol they hold up to 2 sqrt(n_samples * tol) for the last but one recorded iterate; among the first K iterates one satisfies them up to 2 sqrt(n_samples * (-log L)/K); equal consecutive values in the history, and maximum likelihood, imply that they hold exactly; every limit point of the iterates solves them exactly; and for every eps there is a K such that any fit that makes at least K iterations returns parameters within eps, entry by entry, of an exact solution.", "quantifier": "all model sizes, all starting parameters that give the data positive probability, all data sets, both implementations, all params strings, all eps", "why_tests_cant": "a statement about limits of unbounded executions", "anchors": ["src/hmmlearn/base.py:120-127", "src/hmmlearn/base.py:484-501", "src/hmmlearn/base.py:891-912", "src/hmmlearn/hmm.py:150-155"]}
{"id": "C93", "title": "Where training comes to rest is a critical point of the likelihood", "statement": "For CategoricalHMM with flat priors the log-likelihood of the data is differentiable along every segment from the current parameters to another model with the same zeros and the same untrained parts, with the derivative given by the expected counts of the E-step (Fisher's identity); the likelihood equations hold exactly when none of these derivatives is positive; so every limit point of training is a critical point, and an iteration strictly increases the likelihood unless the parameters are one.", "quantifier": "all model sizes, all parameters that give the data positive probability, all directions, all data sets, all params strings", "why_tests_cant": "quantifies over all directions at all parameters, and over limits", "anchors": ["src/hmmlearn/base.py:670-742", "src/hmmlearn/base.py:891-912", "src/hmmlearn/hmm.py:150-155"]}
{"id": "C94", "title": "Which exception a call raises, and what it leaves behind", "statement": "For every class, once _check has passed: an X that is not two-dimensional, has no rows or columns, or contains NaN or infinity makes score, score_samples, predict_proba, decode and predict raise ValueError, and fit raise ValueError without touching the object or a random generator; all other X pass. A decoder name other than 'viterbi' and 'map' raises ValueError before the data are looked at, where a missing or empty argument stands for the object's own; an implementation name other than 'log' and 'scaling' raises KeyError; lengths that do not cut the samples raise IndexError (empty) or ValueError (wrong total) before anything about the parameters or entries is reported. Emission parameters given as a vector are one row. PoissonHMM does not look at its data: a negative count has probability zero, so score is -inf or raises.", "quantifier": "all classes including the variational ones, all objects, all arrays, all names, all lengths", "why_tests_cant": "the arguments are unbounded arrays and strings; the order of the checks only shows when several are wrong at once", "anchors": ["src/hmmlearn/base.py:233-249", "src/hmmlearn/base.py:335-356", "src/hmmlearn/base.py:453-500", "src/hmmlearn/_utils.py:16-28", "src/hmmlearn/hmm.py:138-148", "src/hmmlearn/_emissions.py:383-393"]}
{"id": "C95", "title": "Warnings of initialisation", "statement": "_init of every class announces exactly the attributes it is about to overwrite: an attribute is named in a warning if and only if it was set and its code is in init_params, in the order in which the code asks (the variational classes initialise attributes in groups and announce only the first of each group). After those of the base class it warns about a degenerate solution if and only if the parameters selected by params have more scalars than X has entries, with both numbers in the message. If _init raises, the warnings so far are a prefix of that list. Issuing warnings changes nothing else. On an object on which nothing was set there are no overwrite warnings; an empty init_params never overwrites.", "quantifier": "all seven classes, all covariance types, all objects (attributes of any shape, set or not), all init_params and params strings, all data, all generators", "why_tests_cant": "the warnings depend on arbitrary strings, on which attributes were assigned before and on the point at which initialisation fails; a test fixes one combination", "anchors": ["src/hmmlearn/base.py:523-533", "src/hmmlearn/base.py:919-945", "src/hmmlearn/base.py:1050-1097", "src/hmmlearn/hmm.py:128-136", "src/hmmlearn/hmm.py:307-325", "src/hmmlearn/hmm.py:533-577", "src/hmmlearn/hmm.py:918-925", "src/hmmlearn/hmm.py:1037-1050", "src/hmmlearn/vhmm.py:135-155", "src/hmmlearn/vhmm.py:458-530"]}
{"id": "C96", "title": "Training does not depend on how the data are written", "statement": "Let the same observations be written in two ways: categories renumbered (CategoricalHMM), columns reordered (PoissonHMM, MultinomialHMM), columns reordered, reversed and shifted (GaussianHMM and GMMHMM diag, GaussianHMM spherical), rotated, reflected and translated (GaussianHMM full, tied; GMMHMM spherical, full, tied). If the starting attributes and the priors (for GMMHMM: the default priors) are rewritten in the same way, the two runs of fit have the same history, number of iterations, outcome, startprob_ and transmat_, and the emission attributes of one are those of the other rewritten; for GaussianHMM provided the means are trained whenever the covariances are. Without that proviso (params='c') it is false: shifting the origin changes the fitted variance.", "quantifier": "all data sets of any number and length of sequences, all numbers of states and features, all permutations, sign changes, translations and orthogonal matrices, all models with positive likelihood, all admissible priors, both implementations, any n_iter and tolerance", "why_tests_cant": "equality of whole runs over all data sets and a continuum of rotations and translations; in floating point the two runs differ by rounding, so a test can only compare with a tolerance", "anchors": ["src/hmmlearn/hmm.py:150-155", "src/hmmlearn/hmm.py:340-387", "src/hmmlearn/hmm.py:734-809", "src/hmmlearn/hmm.py:938-942", "src/hmmlearn/hmm.py:1061-1081", "src/hmmlearn/_emissions.py:79-105", "src/hmmlearn/_emissions.py:129-163", "src/hmmlearn/_emissions.py:203-292", "src/hmmlearn/_emissions.py:335-362", "src/hmmlearn/_emissions.py:383-408", "src/hmmlearn/base.py:467-507"]}
{"id": "C97", "title": "Seeing every sequence k times is the same as weaker priors and a finer tolerance", "statement": "Let fit be run on k copies of a data set, with priors that count k times as much (each prior parameter's distance to the value at which it has no effect multiplied by k) and with tol multiplied by k. Then it returns the same attributes after the same number of iterations, or raises the same exception at the same point, as the run on one copy, and every entry of its history is k times as large. In particular the default flat priors need no change. This holds for CategoricalHMM, PoissonHMM, MultinomialHMM, GaussianHMM full and tied, GaussianHMM diag and spherical as long as the divisor of the variances stays above its floor 1e-5, and GMMHMM with default priors on weights, means and covariances (spherical: as many components as features). Where the floor is in effect it is false: with params='c' and the default covars_weight, doubling the data doubles the fitted variance.", "quantifier": "all k >= 1, all data sets of any number and length of sequences, all numbers of states and features, all models with positive likelihood, all admissible priors, both implementations, any n_iter and tolerance", "why_tests_cant": "equality of whole runs over all data sets, multiplicities and priors; in floating point the two runs differ by rounding, so a test can only compare with a tolerance, and the number of iterations is a threshold decision", "anchors": ["src/hmmlearn/base.py:89-129", "src/hmmlearn/base.py:467-507", "src/hmmlearn/base.py:891-912", "src/hmmlearn/hmm.py:150-155", "src/hmmlearn/hmm.py:340-387", "src/hmmlearn/hmm.py:734-809", "src/hmmlearn/hmm.py:938-942", "src/hmmlearn/hmm.py:1061-1081"]}
{"id": "C98", "title": "Integer hyper-parameters or covariances make GMMHMM.fit raise TypeError", "statement": "GMMHMM keeps the type of means_prior, means_weight and covars_. If the means are trained and means_prior and means_weight both are of integer type (such as the values 0, 0 that are GaussianHMM's defaults), or the covariances are trained and covars_ was set to integers and is not initialised anew, then fit with n_iter >= 1 never returns normally; and whenever the same call would succeed with floating-point arrays of the same values, it raises TypeError in the first E step, with an empty history and the parameters that _init left. In all other cases the types make no difference: fit ends in the same way with the same attributes.", "quantifier": "all data, lengths, objects with any attributes, all four covariance types, any numbers of states, components and features, any generators and library routines", "why_tests_cant": "says that no data set and no attributes whatever let such a call succeed, and that in the remaining cases no call depends on the types", "anchors": ["src/hmmlearn/_emissions.py:221-230", "src/hmmlearn/_emissions.py:268-292", "src/hmmlearn/hmm.py:615-648", "src/hmmlearn/hmm.py:535-591", "src/hmmlearn/base.py:467-507"]}
{"id": "C99", "title": "Integer observations are the same as equal real observations", "statement": "For GaussianHMM, GMMHMM and VariationalGaussianHMM with every covariance type, an array of integers whose squares are 64-bit numbers gives exactly the results of the floating-point array with the same values: fit ends with the same exception or attributes, and score, score_samples, predict_proba, decode and predict return or raise the same.", "quantifier": "all integer arrays with squares below 2^63 of any size, all lengths, all objects, all library routines and generators", "why_tests_cant": "equality of the results of all methods over all integer arrays and all objects", "anchors": ["src/hmmlearn/base.py:233-249", "src/hmmlearn/base.py:300-356", "src/hmmlearn/base.py:467-507", "src/hmmlearn/_emissions.py:129-163", "src/hmmlearn/_emissions.py:203-292", "src/hmmlearn/hmm.py:307-322", "src/hmmlearn/hmm.py:535-591", "src/hmmlearn/vhmm.py:463-562"]}
{"id": "C100", "title": "Symbol arrays with several columns are read row by row, except in variational training and in bic", "statement": "CategoricalHMM still accepts (deprecated) integer arrays with d columns. With every sequence non-empty (or d = 1), score, score_samples, predict_proba, decode, predict, fit and aic behave on such an array exactly as on the single column that lists its entries row after row, with every length multiplied by d: same results, same exceptions, same object afterwards. With d different from 1 and non-negative lengths, one of them zero, score_samples and decode always raise. bic penalises with the logarithm of the number of rows, not of symbols. The inference methods of VariationalCategoricalHMM flatten in the same way, but its fit with more than one column raises ValueError in the first E step and learns nothing.", "quantifier": "all integer arrays of any size, all lengths (also negative ones when d = 1), all objects, all generators, any number type", "why_tests_cant": "equality of all methods, including the exceptions and the state of the object, over all shapes, contents and lengths", "anchors": ["src/hmmlearn/_emissions.py:53-68", "src/hmmlearn/_emissions.py:79-84", "src/hmmlearn/_emissions.py:91-104", "src/hmmlearn/vhmm.py:198-199", "src/hmmlearn/_utils.py:17-26", "src/hmmlearn/base.py:1003-1025"]}
{"id": "C101", "title": "Inference takes one column for all features, fit refuses it", "statement": "A fitted GaussianHMM, GMMHMM, VariationalGaussianHMM or PoissonHMM with nf features accepts data with a single column in score, score_samples, predict_proba, decode and predict: the result, the exceptions and the object afterwards are those of the data whose nf columns all equal that column. Any other number of columns (with nf > 1) raises, ValueError for score with a known implementation and non-empty lengths. MultinomialHMM raises for every wrong number of columns, one included. fit of an object that has n_features raises ValueError for every other number of columns, one included, and leaves the object unchanged.", "quantifier": "all objects, all numbers of features and columns, all data and lengths, every covariance type", "why_tests_cant": "equality of five methods over all models, data and lengths", "anchors": ["src/hmmlearn/stats.py:47-103", "src/hmmlearn/_emissions.py:129-131", "src/hmmlearn/_emissions.py:382-393", "src/hmmlearn/base.py:535-550"]}
{"id": "C102", "title": "Counts given in floating point", "statement": "PoissonHMM treats floats that are integers exactly as these integers in score, score_samples, predict_proba, decode, predict and fit: same results, exceptions and object afterwards. A number that is not a natural number has probability zero: the inference methods answer as for the emission weight that is the product of the Poisson weights, zero for such numbers, and score of data with such an entry is -inf (log) or raises (scaling). MultinomialHMM infers from integer-valued floats as from the integers, but its fit refuses every float array with ValueError and changes nothing but n_features.", "quantifier": "all arrays of any size, all lengths, all objects, all generators; for the densities all models with valid parameters and all real data", "why_tests_cant": "equality of six methods over all objects, shapes and lengths; value of the density at every real number", "anchors": ["src/hmmlearn/_emissions.py:312-324", "src/hmmlearn/_emissions.py:343-358", "src/hmmlearn/_emissions.py:382-407"]}
{"id": "C103", "title": "Continuing a sample from its last state", "statement": "After Z1 = sample(n), sample(m, currstate=Z1[-1]) starts with the state Z1[-1] itself: the element is repeated, so the concatenation that the documentation suggests contains a transition of probability zero whenever transmat_ has a zero diagonal. Without its first element the second sample does continue the first one: for an ideal generator the two together have exactly the law of sample(n + m - 1), states and observations jointly. On an object whose random_state is an integer, however, every call restarts the same generator: continuing again and again is periodic, with preperiod and period together at most n_components calls.", "quantifier": "all classes that are fitted by EM, all objects with valid parameters, all n and m, all state paths and measurable sets of observations; the first and last claim for any generator and number type", "why_tests_cant": "equality of two laws; periodicity of an infinite sequence of calls", "anchors": ["src/hmmlearn/base.py:398-448"]}
{"id": "C104", "title": "Several columns against a model of one feature", "statement": "The inference methods of a model with one feature accept data with any number of columns. PoissonHMM takes the columns of a sample for independent counts with the rate of the state. GaussianHMM (diag, spherical) multiplies normal densities of the columns but counts the normalising factor of one column only: the weight of state i is the density of independent columns times sqrt(2 pi v_i)^(d-1), so exp(score) of one sample is not a density (its integral is the mean of these factors under startprob_) and states with large variance are favoured.", "quantifier": "all numbers of columns and states, all models with valid parameters, all data and lengths, both implementations; score, predict_proba, decode and predict", "why_tests_cant": "value of every inference method for all data; an integral over all samples", "anchors": ["src/hmmlearn/_emissions.py:382-393", "src/hmmlearn/stats.py:47-66", "src/hmmlearn/_emissions.py:126-131"]}
{"id": "C105", "title": "Integer arrays whose squares do not fit their type", "statement": "The statistics of GaussianHMM (diag, spherical) square the data in the integer type of the array, where the result is reduced modulo 2^bits. If all squares fit, fit is exactly that of the exact squares. Otherwise one iteration of EM has the likelihood, startprob_, transmat_ and means_ of the same numbers in floating point, and each variance is smaller by the expected loss (multiples of 2^bits). For a signed type and amplitudes between the square root of 2^(bits-1) and that of 2^bits (int16: 182 to 255), no weight on the means prior and more samples than the sum of covars_prior over the states, a fit of at least one iteration that does not raise leaves negative variances in every feature, and implementation=\"log\" does not raise.", "quantifier": "all integer types and widths, all numbers of states, features, sequences and iterations, all data as described, all starting points that use every state, both implementations; exact arithmetic outside the integer type", "why_tests_cant": "all widths, all data; the loss is an identity between two runs of EM", "anchors": ["src/hmmlearn/_emissions.py:152-158", "src/hmmlearn/hmm.py:340-369", "src/hmmlearn/base.py:453-512"]}
{"id": "C106", "title": "Any integer as currstate of sample", "statement": "sample(n, currstate=c) never checks c. If c is the Python index of a state k, counted from either end, then the observations, the later states, the exception if any and the generator are those of currstate=k, but the first element of the returned state sequence is c itself, negative if c counts from the end; the later elements are states. If c is no index, _generate_sample_from_state raises IndexError (MultinomialHMM with several n_trials: its ValueError) before any number is drawn: the object is as the checks left it and no generator has moved.", "quantifier": "all integers c, all n_samples, seeds and generators, all objects, any arithmetic; all estimator classes including the variational ones", "why_tests_cant": "all integers, all objects and generators", "anchors": ["src/hmmlearn/base.py:398-451", "src/hmmlearn/_emissions.py:106-109", "src/hmmlearn/_emissions.py:178-181", "src/hmmlearn/_emissions.py:294-307", "src/hmmlearn/_emissions.py:363-369", "src/hmmlearn/_emissions.py:409-410"]}
{"id": "C107", "title": "States that start with equal parameters keep equal parameters", "statement": "If two states have equal emission parameters, equal priors and exchangeable start and transition probabilities, they have them after every fit, whatever the data, the number of iterations and params: EM never separates them. If all states of a PoissonHMM start equal, any fit that re-estimates 'l' and does not raise gives each state the rate (lambdas_prior + total count) / (lambdas_weight + number of samples), as for a single state. If all states of a GaussianHMM (diag, means_weight 0) start equal, each mean is the mean of all samples, and each variance is (covars_prior + S / n_components) / max(max(covars_weight - 1, 0) + N / n_components, 1e-5) with S the sum of squared deviations of the N samples, so that the prior counts once per state.", "quantifier": "all numbers of states, features, mixture components, sequences and iterations, all data, all params and implementations, all pairs of states; all four Gaussian and all four GMM covariance types, CategoricalHMM, MultinomialHMM, PoissonHMM; exact arithmetic", "why_tests_cant": "all data and all numbers of iterations; an invariant of EM", "anchors": ["src/hmmlearn/base.py:453-512", "src/hmmlearn/hmm.py:1066-1075", "src/hmmlearn/hmm.py:340-369", "src/hmmlearn/hmm.py:729-790"]}
{"id": "C108", "title": "covariance_type is an attribute that any string can be assigned to", "statement": "GaussianHMM never validates covariance_type in the constructor. With a string that is not one of the four types no method returns. score, predict, decode, predict_proba and sample raise the documented ValueError on an otherwise valid object. fit never reaches that check: once the data are accepted it raises KeyError(covariance_type), after having overwritten startprob_ and transmat_ exactly as the initialisation for a valid type does; means_, covars_ and the monitor are untouched (GMMHMM.fit does the same). A first fit that fails in this way leaves an object that counts as fitted: score raises AttributeError (or what the check of the drawn probabilities raises), never NotFittedError, even after the name has been corrected. Exchanging \"diag\" and \"spherical\" on an object that holds a table of variances changes no inference method.", "quantifier": "all strings, objects, data, lengths, generators and any arithmetic", "why_tests_cant": "all strings, all objects and data", "anchors": ["src/hmmlearn/hmm.py:23", "src/hmmlearn/hmm.py:287", "src/hmmlearn/hmm.py:309-332", "src/hmmlearn/_emissions.py:114-127", "src/hmmlearn/_emissions.py:186-202", "src/hmmlearn/base.py:919-945", "src/hmmlearn/base.py:979-1001", "src/hmmlearn/stats.py:60-68"]}
{"id": "C109", "title": "covars_prior keeps the shape of the covariance_type it was first used with", "statement": "_fix_priors_shape of GMMHMM replaces the constructor argument covars_prior by an array of the shape for the current covariance_type. Once a check or a fit has succeeded with one type, assigning a type whose covars_prior has fewer axes (full to tied, diag or spherical; tied or diag to spherical) leaves an object on which no public method returns: score, predict, predict_proba, decode, sample and fit all raise, whatever weights_, means_ and covars_ are set to. After a successful check score raises ValueError, about broadcasting. A failed score leaves covars_prior as it is, so later calls fail in the same way.", "quantifier": "all objects, data, lengths, generators, numbers of states, components and features, any arithmetic", "why_tests_cant": "all objects and all values assigned in between", "anchors": ["src/hmmlearn/hmm.py:593-613", "src/hmmlearn/hmm.py:615-648", "src/hmmlearn/hmm.py:650-662", "src/hmmlearn/hmm.py:533-545"]}

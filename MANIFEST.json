{
 "claims": [
  {
   "property": "C01",
   "status": "proved",
   "theorems": [
    "Verif.C01_score_log",
    "Verif.C01_score_log_single"
   ],
   "note": "All models with real parameters (also zero probabilities), any number and lengths of sequences; exact real arithmetic with IEEE special values."
  },
  {
   "property": "C02",
   "status": "proved",
   "theorems": [
    "Verif.C02_score_scaling",
    "Verif.C02_zero_likelihood_raises"
   ],
   "note": "ValueError exactly when a partial sum is below 1e-300, otherwise the exact log-likelihood."
  },
  {
   "property": "C03",
   "status": "proved",
   "theorems": [
    "Verif.C03_score_samples_agree",
    "Verif.C03_decode_map_agree",
    "Verif.C03_decode_viterbi_agree"
   ],
   "note": "score_samples and decode (MAP and Viterbi) of the two implementations agree when scaling does not raise; E-step statistics and whole fits in C26."
  },
  {
   "property": "C04",
   "status": "proved",
   "theorems": [
    "Verif.C04_predict_proba"
   ],
   "note": "Both implementations; marginals of the sum over all state paths."
  },
  {
   "property": "C05",
   "status": "proved",
   "theorems": [
    "Verif.C05_rows_distributions",
    "Verif.C05_zero_likelihood_nan",
    "Verif.C05_zero_likelihood_one_state",
    "Verif.C05_zero_likelihood_scaling_raises"
   ],
   "note": "Row sums, and NaN rows exactly for zero likelihood."
  },
  {
   "property": "C06",
   "status": "proved",
   "theorems": [
    "Verif.C06_estep_statistics"
   ],
   "note": "Both implementations."
  },
  {
   "property": "C07",
   "status": "proved",
   "theorems": [
    "Verif.C07_bookkeeping"
   ],
   "note": ""
  },
  {
   "property": "C08",
   "status": "proved",
   "theorems": [
    "Verif.C08_viterbi_optimal",
    "Verif.C08_viterbi_optimal_single"
   ],
   "note": "Over all state paths, any lattice of real or -inf values."
  },
  {
   "property": "C09",
   "status": "proved",
   "theorems": [
    "Verif.C09_viterbi_mono",
    "Verif.C09_viterbi_rounded"
   ],
   "note": "Any monotone rounding without positive overflow, applied after every operation."
  },
  {
   "property": "C10",
   "status": "proved",
   "theorems": [
    "Verif.C10_viterbi_feasible"
   ],
   "note": ""
  },
  {
   "property": "C11",
   "status": "proved",
   "theorems": [
    "Verif.C11_bracket"
   ],
   "note": ""
  },
  {
   "property": "C12",
   "status": "proved",
   "theorems": [
    "Verif.C12_map_argmax",
    "Verif.C12_map_maximises_expected_correct"
   ],
   "note": "Ties to the lowest index."
  },
  {
   "property": "C13",
   "status": "proved",
   "theorems": [
    "Verif.C13_map_log_prob_not_log_probability"
   ],
   "note": "The documented meaning of log_prob is violated; the theorem states the value actually returned and proves that it is never a log probability."
  },
  {
   "property": "C14",
   "status": "proved",
   "theorems": [
    "Verif.C14_score_lengths",
    "Verif.C14_predict_proba_lengths",
    "Verif.C14_decode_lengths",
    "Verif.C14_lengths_none"
   ],
   "note": "score, predict_proba, decode, predict."
  },
  {
   "property": "C15",
   "status": "proved",
   "theorems": [
    "Verif.C15_split_partition",
    "Verif.C15_split_rejects",
    "Verif.C15_split_empty_lengths",
    "Verif.C15_negative_lengths_duplicate",
    "Verif.C15_no_sample_lost",
    "Verif.C15_split_blocks"
   ],
   "note": "Exact acceptance condition, including negative lengths."
  },
  {
   "property": "C16",
   "status": "proved",
   "theorems": [
    "Verif.C16_zero_length_map",
    "Verif.C16_positive_lengths_nonempty",
    "Verif.C16_zero_length_undefined"
   ],
   "note": "Violation proved for the log kernels and Viterbi (MAP decoding raises ValueError); memory-level statement in C17 theorems."
  },
  {
   "property": "C17",
   "status": "proved",
   "theorems": [
    "Verif.C17_forward_scaling_rejects",
    "Verif.C17_forward_log_rejects",
    "Verif.C17_backward_log_rejects",
    "Verif.C17_viterbi_rejects",
    "Verif.C17_backward_scaling_rejects",
    "Verif.C17_scaling_xi_rejects",
    "Verif.C17_log_xi_rejects",
    "Verif.C17_forward_scaling",
    "Verif.C17_forward_scaling_safe",
    "Verif.C17_backward_scaling",
    "Verif.C17_backward_scaling_safe",
    "Verif.C17_forward_log",
    "Verif.C17_forward_log_safe",
    "Verif.C17_backward_log",
    "Verif.C17_backward_log_safe",
    "Verif.C17_viterbi",
    "Verif.C17_viterbi_safe",
    "Verif.C17_scaling_xi",
    "Verif.C17_scaling_xi_safe",
    "Verif.C17_log_xi",
    "Verif.C17_log_xi_safe",
    "Verif.C17_forward_scaling_no_frames",
    "Verif.C17_forward_log_no_frames",
    "Verif.C17_viterbi_no_frames",
    "Verif.C17_backward_scaling_no_frames",
    "Verif.C17_backward_log_no_frames",
    "Verif.C17_log_xi_no_frames",
    "Verif.C17_log_xi_no_states",
    "Verif.C17_forward_log_no_states",
    "Verif.C17_viterbi_no_states"
   ],
   "note": "Array-level transcription of ext/_hmmc.cpp (Model/HmmcRaw.lean) with arrays of any dimension and shape, mutable lattices, uninitialised memory and the loops of the source; any arithmetic. Refinement to the typed kernels the other properties use. Not modelled: int loop counters beyond 2^31, strides."
  },
  {
   "property": "C18",
   "status": "proved",
   "theorems": [
    "Verif.C18_start",
    "Verif.C18_trans"
   ],
   "note": "Rows sum to one; the new startprob_ and transmat_ rows are non-negative for any prior (the code clips); startprob_ is NaN when no allowed entry is positive, a transmat_ row is all zero."
  },
  {
   "property": "C19",
   "status": "proved",
   "theorems": [
    "Verif.C19_categorical_fit",
    "Verif.C19_start_step",
    "Verif.C19_trans_step",
    "Verif.C19_start_fit",
    "Verif.C19_trans_fit"
   ],
   "note": "For arbitrary data the code can turn the row into NaN (zero-likelihood data under the log implementation); the theorem says zero or a NaN iterate, and exactly zero for data of positive likelihood with priors >= 1."
  },
  {
   "property": "C20",
   "status": "proved",
   "theorems": [
    "Verif.C20_poisson",
    "Verif.C20_multinomial",
    "Verif.C20_gaussian_diag",
    "Verif.C20_gaussian_spherical",
    "Verif.C20_gaussian_full",
    "Verif.C20_gaussian_tied",
    "Verif.C20_gmm",
    "Verif.C20_start",
    "Verif.C20_trans",
    "Verif.C20_categorical"
   ],
   "note": "startprob_ and transmat_ for every emission family; emission parameters for Categorical, Poisson, Multinomial, Gaussian (all covariance types)."
  },
  {
   "property": "C21",
   "status": "proved",
   "theorems": [
    "Verif.C21_em_monotone"
   ],
   "note": "Whole runs of fit, both implementations, any params; penalised by the Dirichlet priors."
  },
  {
   "property": "C22",
   "status": "proved",
   "theorems": [
    "Verif.C22_poisson",
    "Verif.C22_multinomial",
    "Verif.C22_gaussian",
    "Verif.C22_gaussian_flat",
    "Verif.C22_gaussian_weighted",
    "Verif.C22_gaussian_full",
    "Verif.C22_gaussian_tied",
    "Verif.C22_gaussian_full_flat",
    "Verif.C22_gaussian_tied_flat"
   ],
   "note": "PoissonHMM, MultinomialHMM, GaussianHMM (all four covariance types): whole fit, any params, both implementations. GaussianHMM: penalised likelihood for any proper prior, likelihood itself for flat priors; diag/spherical at every iteration whose occupancies are above the 1e-5 floor of the M-step, full/tied at every iteration whose new covariances are non-singular."
  },
  {
   "property": "C23",
   "status": "proved",
   "theorems": [
    "Verif.C23_fit_history"
   ],
   "note": "Any arithmetic and emission family."
  },
  {
   "property": "C24",
   "status": "proved",
   "theorems": [
    "Verif.C24_gmm",
    "Verif.C24_fixed",
    "Verif.C24_constructor",
    "Verif.C24_zero_uncapped"
   ],
   "note": "The cap is the constructor n_iter held by the monitor, unless n_iter is 0; setting est.n_iter or est.tol later only changes the cap downwards or not at all. Categorical, Multinomial, Poisson, four Gaussian classes, GMMHMM."
  },
  {
   "property": "C25",
   "status": "proved",
   "theorems": [
    "Verif.C25_gmm_weights",
    "Verif.C25_gmm_covars",
    "Verif.C25_gmm_means",
    "Verif.C25_gmm_codes",
    "Verif.C25_gmm_template",
    "Verif.C25_gmm_label",
    "Verif.C25_keeps",
    "Verif.C25_draws",
    "Verif.C25_start",
    "Verif.C25_key_error",
    "Verif.C25_categorical",
    "Verif.C25_poisson",
    "Verif.C25_multinomial",
    "Verif.C25_multinomial_unset",
    "Verif.C25_gaussian_means",
    "Verif.C25_gaussian_covars"
   ],
   "note": "Categorical, Multinomial, Poisson, four Gaussian classes, GMMHMM (weights, covariances, means, labels). MultinomialHMM does not test whether emissionprob_ was set, so there an unset emissionprob_ without e in init_params stays unset and fit raises."
  },
  {
   "property": "C26",
   "status": "proved",
   "theorems": [
    "Verif.C26_implementation_irrelevant",
    "Verif.C26_poisson",
    "Verif.C26_multinomial",
    "Verif.C26_gaussian",
    "Verif.C26_gaussian_full",
    "Verif.C26_gaussian_tied",
    "Verif.C26_gmm_diag",
    "Verif.C26_gmm_full",
    "Verif.C26_gmm_tied",
    "Verif.C26_gmm_spherical"
   ],
   "note": "Generic fit_impl; CategoricalHMM, PoissonHMM, MultinomialHMM, GaussianHMM (all covariance types)."
  },
  {
   "property": "C27",
   "status": "proved",
   "theorems": [
    "Verif.C27_estep_order",
    "Verif.C27_fit_order",
    "Verif.C27_poisson",
    "Verif.C27_multinomial",
    "Verif.C27_gaussian",
    "Verif.C27_gaussian_full",
    "Verif.C27_gaussian_tied",
    "Verif.C27_gmm_diag",
    "Verif.C27_gmm_full",
    "Verif.C27_gmm_tied",
    "Verif.C27_gmm_spherical"
   ],
   "note": "Generic fit_perm; CategoricalHMM, PoissonHMM, MultinomialHMM, GaussianHMM (all covariance types)."
  },
  {
   "property": "C28",
   "status": "proved",
   "theorems": [
    "Verif.C28_step",
    "Verif.C28_fit",
    "Verif.C28_unused",
    "Verif.C28_occupied",
    "Verif.C28_shapes",
    "Verif.C28_checked",
    "Verif.C28_poisson",
    "Verif.C28_multinomial",
    "Verif.C28_gaussian_diag",
    "Verif.C28_gaussian_spherical",
    "Verif.C28_gaussian_full",
    "Verif.C28_gaussian_tied",
    "Verif.C28_categorical",
    "Verif.Broken.C28_witness"
   ],
   "note": "C28_step: one EM iteration of any emission family with the flat transition prior gives startprob_/transmat_ that pass the base check if every state has positive expected occupancy before the last samples, and otherwise an all-zero row after which every public call raises ValueError. C28_fit lifts this to a whole fit. C28_<class>: per class, from a condition on the initial parameters and data only, the fitted model passes the whole _check (GMMHMM: base check only, through C28_fit). Broken.C28_witness: a valid model and possible data for which fit returns and the model is unusable."
  },
  {
   "property": "C29",
   "status": "proved",
   "theorems": [
    "Verif.C29_em_penalised",
    "Verif.C29_update_optimal"
   ],
   "note": "Global optimality on the simplex for priors >= 1 (concave case)."
  },
  {
   "property": "C30",
   "status": "proved",
   "theorems": [
    "Verif.C30_gmm",
    "Verif.C30_check",
    "Verif.C30_valid",
    "Verif.C30_rejects",
    "Verif.C30_not_fitted",
    "Verif.C30_categorical"
   ],
   "note": "Exact acceptance condition of _check over the reals for startprob_/transmat_/emissionprob_ of any shape; rejection raised by every inference call and sample; witnesses that negative entries and 2-D startprob_ pass. C30_gmm: exact condition for GMMHMM, four covariance types."
  },
  {
   "property": "C31",
   "status": "proved",
   "theorems": [
    "Verif.C31_validation",
    "Verif.C31_reject",
    "Verif.C31_accept"
   ],
   "note": "Integer arrays of one or more columns."
  },
  {
   "property": "C32",
   "status": "proved",
   "theorems": [
    "Verif.Categorical.C32_index",
    "Verif.Categorical.C32_lookup",
    "Verif.Categorical.C32_out_of_range",
    "Verif.C32_score_wraps",
    "Verif.C32_decode_wraps",
    "Verif.C32_score_raises",
    "Verif.C32_decode_raises"
   ],
   "note": "Negative symbols reach the emission table through score and decode only, where they index from the end; fit rejects them."
  },
  {
   "property": "C33",
   "status": "proved",
   "theorems": [
    "Verif.C33_validation",
    "Verif.C33_reject",
    "Verif.C33_sticky"
   ],
   "note": "Exact acceptance condition."
  },
  {
   "property": "C34",
   "status": "proved",
   "theorems": [
    "Verif.C34_categorical",
    "Verif.C34_multinomial",
    "Verif.C34_poisson",
    "Verif.C34_gaussian",
    "Verif.C34_inference_sets",
    "Verif.C34_gmm"
   ],
   "note": "Also: score on an unfitted CategoricalHMM sets n_features (C34_inference_sets). C34_gmm for GMMHMM."
  },
  {
   "property": "C35",
   "status": "proved",
   "theorems": [
    "Verif.C35_spherical",
    "Verif.C35_diag",
    "Verif.C35_tied",
    "Verif.C35_full",
    "Verif.C35_usable",
    "Verif.C35_too_lenient"
   ],
   "note": "Exact acceptance condition for finite arrays of any shape; the claim that every accepted array fits is false for spherical/diag (NaN, wrong number of rows), witnesses in C35_too_lenient. scipy eigvalsh is a parameter assumed to return the spectrum."
  },
  {
   "property": "C36",
   "status": "proved",
   "theorems": [
    "Verif.C36_sample",
    "Verif.C36_total",
    "Verif.C36_emission"
   ],
   "note": "C36_sample: for every class, n, seed and currstate, whatever sample returns has max(n,1) states and as many rows, states below n_components, first state the given one, feature count the estimator's (so sample(0) returns one sample). C36_total/C36_emission: it does return for Poisson, Categorical with a symbol, Multinomial with one n_trials. Out-of-range currstate not modelled."
  },
  {
   "property": "C37",
   "status": "proved",
   "theorems": [
    "Verif.C37_from",
    "Verif.C37_joint",
    "Verif.C37_states",
    "Verif.C37_categorical",
    "Verif.C37_likelihood",
    "Verif.IdealStream.C37_generator_exists",
    "Verif.C37_vcategorical"
   ],
   "note": "For an ideal generator (uniform independent draws, Spec.Draws; IdealStream shows one exists): C37_states gives the stated path probability for every class whose emission hook draws; C37_joint the joint law with observations; C37_from with currstate; C37_categorical joint law of states and symbols for CategoricalHMM, C37_likelihood the law of the observations equals the likelihood score computes."
  },
  {
   "property": "C38",
   "status": "proved",
   "theorems": [
    "Verif.C38_step",
    "Verif.C38_short_row",
    "Verif.C38_zero_row",
    "Verif.C38_path",
    "Verif.C38_rounded"
   ],
   "note": "C38_step/C38_path: with rows summing to at least one only transitions of positive probability are drawn, for draws in [0,1); C38_short_row/C38_zero_row: a row that sums to less can give state 0 whatever its probability; C38_rounded: the same in rounded arithmetic for draws below some partial sum."
  },
  {
   "property": "C39",
   "status": "proved",
   "theorems": [
    "Verif.C39_gmm_sample",
    "Verif.C39_gmm",
    "Verif.C39_sample",
    "Verif.C39_sample_state",
    "Verif.C39_categorical",
    "Verif.C39_multinomial",
    "Verif.C39_poisson",
    "Verif.C39_gaussian",
    "Verif.SeedingDemo.C39_second_fit_differs"
   ],
   "note": "Seeded sample: through every history without fit, for every state of the other generators. Stored seed: Categorical, Multinomial, Poisson replace it; GaussianHMM and GMMHMM keep it through every history. C39_second_fit_differs is a concrete pair of fits."
  },
  {
   "property": "C40",
   "status": "proved",
   "theorems": [
    "Verif.C40_diag",
    "Verif.C40_agree"
   ],
   "note": "Variances at least the smallest normal double (the code replaces smaller ones by it); the spherical clause is for an array (n_components,), see C61 for (n_components, n_features)."
  },
  {
   "property": "C41",
   "status": "proved",
   "theorems": [
    "Verif.C41_posDef",
    "Verif.C41_singular",
    "Verif.C41_reject"
   ],
   "note": "Also: singular matrices get 1e-7 I added, matrices still indefinite raise ValueError."
  },
  {
   "property": "C42",
   "status": "proved",
   "theorems": [
    "Verif.C42_spherical",
    "Verif.C42_diag",
    "Verif.C42_full",
    "Verif.C42_tied"
   ],
   "note": "All four covariance types: frame (log-)likelihoods are the mixture densities; the E-step adds responsibilities that are non-negative, sum to the state posterior and are proportional to weight times density."
  },
  {
   "property": "C43",
   "status": "proved",
   "theorems": [
    "Verif.C43_spherical",
    "Verif.C43_diag",
    "Verif.C43_full",
    "Verif.C43_tied"
   ],
   "note": "One EM iteration from any model and prior: rows sum to 1 when the denominator is non-zero, non-negative for weights_prior >= 1; the closed form of the new weights."
  },
  {
   "property": "C44",
   "status": "proved",
   "theorems": [
    "Verif.C44_diag",
    "Verif.C44_full",
    "Verif.C44_tied"
   ],
   "note": "All four covariance types; full and tied give the exact update, symmetric PSD, and PD for PD covars_prior."
  },
  {
   "property": "C45",
   "status": "proved",
   "theorems": [
    "Verif.C45_diag",
    "Verif.DemoGauss.C45_wrong"
   ],
   "note": "Formula for diag and a concrete model where the result is 400000 instead of 1."
  },
  {
   "property": "C46",
   "status": "proved",
   "theorems": [
    "Verif.C46_full",
    "Verif.C46_diag",
    "Verif.C46_tied",
    "Verif.C46_spherical",
    "Verif.C46_spherical_iff",
    "Verif.C46_spherical_negative"
   ],
   "note": "full, diag, tied: divisor is the effective count. spherical: divisor n_features*N + n_features - n_mix, the ML one iff n_mix = n_features; a concrete case with variance -1 (finding)."
  },
  {
   "property": "C47",
   "status": "proved",
   "theorems": [
    "Verif.C47_update",
    "Verif.C47_flat",
    "Verif.C47_prior_iff",
    "Verif.DemoCounts.C47_prior_wrong"
   ],
   "note": "Update formula for any Gamma prior, reduction to the weighted mean for a zero prior, exact condition under which the code agrees with the documented posterior mean, and a concrete two-state model where it does not."
  },
  {
   "property": "C48",
   "status": "proved",
   "theorems": [
    "Verif.C48_update",
    "Verif.C48_flat"
   ],
   "note": "Update formula and its optimality."
  },
  {
   "property": "C49",
   "status": "proved",
   "theorems": [
    "Verif.C49_row_sums_to_one",
    "Verif.C49_zero_row",
    "Verif.C49_idempotent",
    "Verif.C49_scale_invariant",
    "Verif.C49_no_axis",
    "Verif.C49_axis0"
   ],
   "note": "All axes and degenerate sums."
  },
  {
   "property": "C50",
   "status": "proved",
   "theorems": [
    "Verif.C50_normalises",
    "Verif.C50_shift_invariant",
    "Verif.C50_all_neg_inf"
   ],
   "note": "Including rows of -inf and single columns."
  },
  {
   "property": "C51",
   "status": "proved",
   "theorems": [
    "Verif.C51_aic",
    "Verif.C51_bic",
    "Verif.C51_unset",
    "Verif.C51_categorical",
    "Verif.C51_multinomial",
    "Verif.C51_poisson",
    "Verif.C51_gaussian",
    "Verif.C51_gmm",
    "Verif.C51_gmm_wrong",
    "Verif.C51_gmm_class"
   ],
   "note": "C51_aic/C51_bic: value from the score and the count, +inf for a -inf score, exceptions passed on. Counts equal the dimension (finrank of the span of differences) of the set of valid parameters: C51_categorical, C51_multinomial, C51_poisson, C51_gaussian (four covariance types). C51_gmm/C51_gmm_wrong: GMMHMM counts (n_components-1)*(n_mix-1) too few. C51_unset: before n_features is set both raise. C51_gmm_class ties the count to the GMMHMM object."
  },
  {
   "property": "C52",
   "status": "proved",
   "theorems": [
    "Verif.C52_stationary",
    "Verif.C52_method",
    "Verif.C52_identity_bad",
    "Verif.C52_value"
   ],
   "note": "C52_stationary: for every stochastic matrix with simple eigenvalue 1 and a solver meeting EigSpec (eigenpairs, none missed, real vectors for real eigenvalues; exists_eig shows one exists) the result is real, non-negative, sums to 1, is invariant and is the only such vector; C52_method the attribute handling; SimpleOne_of_column a criterion; C52_identity_bad: without simplicity the result can be meaningless."
  },
  {
   "property": "C53",
   "status": "proved",
   "theorems": [
    "Verif.C53_conjugate",
    "Verif.C53_pos",
    "Verif.C53_totals"
   ],
   "note": "VariationalBaseHMM and VariationalCategoricalHMM training modelled over an abstract special-function library assumed exact. For every run of fit, any number of iterations, both implementations, any params: the posterior attributes are iterated conjugate updates (CatUpdates: prior + expected counts under the exp(digamma) weights); they stay positive; totals are prior total + number of sequences / transitions / samples."
  },
  {
   "property": "C54",
   "status": "proved",
   "theorems": [
    "Verif.C54_valid",
    "Verif.C54_usable",
    "Verif.C54_returns",
    "Verif.C54_startprob_unset",
    "Verif.C54_not_fitted"
   ],
   "note": "After a fit that returned with n_iter>=1 and s,t,e in params, the point parameters are the posterior means, strictly positive, sum to one; point() represents that HMM and score is its finite log-likelihood; with log and t in params fit always returns. Without s in params or n_iter=0 startprob_ stays unset for every class and arithmetic, and score raises NotFittedError."
  },
  {
   "property": "C55",
   "status": "proved",
   "theorems": [
    "Verif.C55_monotone"
   ],
   "note": "History of every fit of VariationalCategoricalHMM (both implementations, any params) is a non-decreasing list of finite numbers, equal to the lower bounds of the successive posteriors (with C53_conjugate)."
  },
  {
   "property": "C56",
   "status": "proved",
   "theorems": [
    "Verif.C56_dirichlet",
    "Verif.C56_normal",
    "Verif.C56_mvn",
    "Verif.C56_gamma",
    "Verif.C56_wishart",
    "Verif.C56_logdet"
   ],
   "note": "With exact special functions and linear algebra (Sci.Exact, satisfied by Sci.real): closed forms, non-negativity, zero at equality; logdet for every square matrix."
  },
  {
   "property": "C57",
   "status": "proved",
   "theorems": [
    "Verif.C57_subnormalised",
    "Verif.C57_estep"
   ],
   "note": "For every exact digamma, any dimension: the weights are positive, at most the mean a_i/sum, so they sum to at most one; also stated for the E-step parameters of every variational class."
  },
  {
   "property": "C58",
   "status": "proved",
   "theorems": [
    "Verif.C58_score",
    "Verif.C58_predict_proba",
    "Verif.C58_viterbi",
    "Verif.C58_viterbi_unique",
    "Verif.C58_map",
    "Verif.C58_fit_categorical",
    "Verif.C58_fit_poisson",
    "Verif.C58_fit_multinomial",
    "Verif.C58_fit_gaussian",
    "Verif.C58_fit_gaussian_full",
    "Verif.C58_fit_gaussian_tied",
    "Verif.C58_fit_gmm_diag",
    "Verif.C58_fit_gmm_spherical",
    "Verif.C58_fit_gmm_full",
    "Verif.C58_fit_gmm_tied"
   ],
   "note": "Any permutation. score (both implementations, including whether it raises), predict_proba columns, Viterbi log_prob (and the path when the optimum is unique; ties are broken by index) and MAP log_prob for every model with real parameters; whole fit (monitor with history and iteration count, exception, renamed attributes) for CategoricalHMM, PoissonHMM, MultinomialHMM, GaussianHMM and GMMHMM with all covariance types, start and transition priors >= 1, data of positive likelihood, every state on a possible path where the M-step divides by its count (degenerate runs produce NaN, whose propagation through max depends on the order)."
  },
  {
   "property": "C59",
   "status": "proved",
   "theorems": [
    "Verif.C59_gmm",
    "Verif.C59_categorical",
    "Verif.C59_multinomial",
    "Verif.C59_poisson",
    "Verif.C59_gaussian",
    "Verif.C59_base",
    "Verif.C59_emission",
    "Verif.C59_sample_unseeded"
   ],
   "note": "For every state of the estimator and every history of score/score_samples/decode/predict/predict_proba/sample(seed) calls the state settles after the first call, and every call returns what it would return first, for Categorical, Multinomial, Poisson the four Gaussian classes and GMMHMM."
  },
  {
   "property": "C60",
   "status": "proved",
   "theorems": [
    "Verif.C60_raise_keeps_last"
   ],
   "note": "Any emission family and arithmetic."
  },
  {
   "property": "C61",
   "status": "proved",
   "theorems": [
    "Verif.C61_ok",
    "Verif.C61_spherical",
    "Verif.C61_stored"
   ],
   "note": "Holds for full, tied, diag and for spherical arrays (n_components,); violated for the (n_components, n_features) array stored by the M-step (C61_spherical, C61_stored)."
  },
  {
   "property": "C62",
   "status": "proved",
   "theorems": [
    "Verif.C62_diag",
    "Verif.C62_full",
    "Verif.C62_tied",
    "Verif.C62_spherical"
   ],
   "note": "diag, full, tied, and spherical with n_mix = n_features; whole runs of fit."
  },
  {
   "property": "C63",
   "status": "proved",
   "theorems": [
    "Verif.C63_attribute_error",
    "Verif.C63_categorical"
   ],
   "note": "For every variational class, arithmetic and data: with transmat_ unset, t not in params, n_iter>=2, fit ends with the first iteration exception or AttributeError after exactly one update; for VariationalCategoricalHMM with log it is always the AttributeError."
  },
  {
   "property": "C64",
   "status": "proved",
   "theorems": [
    "Verif.C64_gmm",
    "Verif.C64_gmm_cov",
    "Verif.C64_joint",
    "Verif.C64_multinomial",
    "Verif.C64_poisson",
    "Verif.C64_gaussian_full",
    "Verif.C64_gaussian_tied",
    "Verif.C64_gaussian_diag",
    "Verif.C64_gaussian_spherical",
    "Verif.C64_multinomial_accepted",
    "Verif.C64_multinomial_refuses",
    "Verif.C64_categorical_accepted",
    "Verif.IdealLib.C64_library_exists",
    "Verif.C64_vgaussian_full",
    "Verif.C64_vgaussian_tied",
    "Verif.C64_vgaussian_diag",
    "Verif.C64_vgaussian_spherical"
   ],
   "note": "Joint law of states and observations for multinomial, Poisson and the four Gaussian classes, from the contracts of the library routines; existence of a library meeting all of them at once; samples pass validation. C64_gmm: mixture of normals, for any of the four covariance types (C64_gmm_cov), weights summing to one."
  },
  {
   "property": "C65",
   "status": "proved",
   "theorems": [
    "Verif.C65_full",
    "Verif.C65_tied",
    "Verif.C65_diag",
    "Verif.C65_spherical"
   ],
   "note": "All four covariance types; digamma, log-gamma and matrix inverse are parameters with a contract (Sci.Exact); real arithmetic. Starting posteriors are assumed proper."
  },
  {
   "property": "C66",
   "status": "proved",
   "theorems": [
    "Verif.C66_formula",
    "Verif.C66_negative"
   ],
   "note": "The stated claim is violated; the theorems give the exact M-step and the condition for a negative scale (diag)."
  },
  {
   "property": "C67",
   "status": "proved",
   "theorems": [
    "Verif.C67_full",
    "Verif.C67_tied",
    "Verif.C67_diag",
    "Verif.C67_spherical"
   ],
   "note": "diag and spherical need the prior scale above 2^-1022 per degree of freedom because the density clips variances there."
  },
  {
   "property": "C68",
   "status": "proved",
   "theorems": [
    "Verif.C68_emission",
    "Verif.C68_sample",
    "Verif.C68_accepted_raises",
    "Verif.C68_negative"
   ],
   "note": "C68_sample: exact condition in terms of the weights, for every accepted model; C68_accepted_raises and C68_negative are the violations."
  },
  {
   "property": "C69",
   "status": "proved",
   "theorems": [
    "Verif.C69_means",
    "Verif.C69_reproducible",
    "Verif.C69_not_reproducible"
   ],
   "note": "C69_means gives the initial means in full; C69_reproducible for clusters of at least n_mix samples; C69_not_reproducible is the violation."
  },
  {
   "property": "C70",
   "status": "proved",
   "theorems": [
    "Verif.C70_broadcast",
    "Verif.C70_priors",
    "Verif.C70_stuck",
    "Verif.C70_init"
   ],
   "note": "C70_broadcast: numpy's rule for any shapes; C70_priors, C70_init, C70_stuck."
  },
  {
   "property": "C71",
   "status": "proved",
   "theorems": [
    "Verif.C71_gmm",
    "Verif.C71_gmm_spherical",
    "Verif.C71_gmm_diag",
    "Verif.C71_gmm_full",
    "Verif.C71_gmm_tied",
    "Verif.C71_categorical",
    "Verif.C71_multinomial",
    "Verif.C71_poisson",
    "Verif.C71_gaussian_diag",
    "Verif.C71_gaussian_spherical",
    "Verif.C71_gaussian_full",
    "Verif.C71_gaussian_tied"
   ],
   "note": "Answers collects the claims on the five methods; C71_* per class and covariance type; ObjectsDemo has concrete objects."
  },
  {
   "property": "C72",
   "status": "proved",
   "theorems": [
    "Verif.C72_categorical",
    "Verif.C72_categorical_fresh",
    "Verif.C72_poisson",
    "Verif.C72_poisson_fresh",
    "Verif.C72_multinomial",
    "Verif.C72_multinomial_fresh"
   ],
   "note": "TrainsFrom collects the claims on one call of fit; C72_* per class; *_fresh: default init_params. The generator is assumed to draw positive numbers (PositiveDraws; satisfied by ObjectFitDemo.lib)."
  },
  {
   "property": "C73",
   "status": "proved",
   "theorems": [
    "Verif.C73_gaussian_diag",
    "Verif.C73_gaussian_spherical",
    "Verif.C73_gaussian_full",
    "Verif.C73_gaussian_tied",
    "Verif.C73_gaussian_diag_fresh",
    "Verif.C73_gaussian_spherical_fresh",
    "Verif.C73_gaussian_full_fresh",
    "Verif.C73_gaussian_tied_fresh"
   ],
   "note": "Four covariance types, from the call of fit to the attributes and the methods; priors on the chain flat; covariances not trained without means. Monotonicity is conditional exactly as in C22 (floor of the M-step for diag/spherical; singular covariances for full/tied). k-means and numpy draws are parameters with contracts (PositiveDraws, RealCentres), met by the generator of Props/ObjectFitDemo."
  },
  {
   "property": "C74",
   "status": "proved",
   "theorems": [
    "Verif.C74_gmm_spherical",
    "Verif.C74_gmm_diag",
    "Verif.C74_gmm_full",
    "Verif.C74_gmm_tied",
    "Verif.C74_gmm_spherical_fresh",
    "Verif.C74_gmm_diag_fresh",
    "Verif.C74_gmm_full_fresh",
    "Verif.C74_gmm_tied_fresh"
   ],
   "note": "Default hyper-parameters (flat priors); KMeans and multivariate_normal are parameters. spherical: n_mix <= n_features (C46 shows the update can turn negative otherwise); monotone only for n_mix = n_features."
  },
  {
   "property": "C75",
   "status": "proved",
   "theorems": [
    "Verif.C75_score",
    "Verif.C75_posteriors",
    "Verif.C75_checked",
    "Verif.C75_accepted",
    "Verif.C75_score_probabilities",
    "Verif.C75_score_in_range",
    "Verif.C75_categorical_binary64",
    "Verif.Demo.C75_demo"
   ],
   "note": "Arithmetic with relative error u per operation; results outside the normal range become NaN, and a NaN result is excluded. IEEE double precision is constructed as an instance (C75_categorical_binary64). exp and log are assumed as accurate as the operations."
  },
  {
   "property": "C76",
   "status": "proved",
   "theorems": [
    "Verif.Demo.C76_demo",
    "Verif.C76_em_step",
    "Verif.C76_run",
    "Verif.C76_history",
    "Verif.C76_fit_in_range"
   ],
   "note": "CategoricalHMM, implementation scaling, priors at least one; any number of iterations. The number of relative errors grows with every iteration (fitSteps), as a worst-case bound must. C76_fit_in_range shows that the hypotheses are met."
  },
  {
   "property": "C77",
   "status": "proved",
   "theorems": [
    "Verif.C77_viterbi_rounded",
    "Verif.C77_categorical_double"
   ],
   "note": "decode (Viterbi) for every model over RX \u03c1 whose log-likelihoods are accurate (LogApproximates); C77_categorical_double is the CategoricalHMM in IEEE double precision with an explicit bound. Range hypotheses: scores of possible paths within the range in which the rounding is accurate."
  },
  {
   "property": "C78",
   "status": "proved",
   "theorems": [
    "Verif.C78_categorical",
    "Verif.C78_categorical_fresh",
    "Verif.C78_array_prior"
   ],
   "note": "The whole call of fit on a VariationalCategoricalHMM object over XF, with an exact digamma/gammaln (Sci.Exact) and a generator whose Dirichlet draws are positive. Hypothesis VSettings: at least one state and iteration, 't' in params or transmat_ already set (otherwise fit raises AttributeError after the first iteration). C78_array_prior is a finding: holds in any arithmetic."
  },
  {
   "property": "C79",
   "status": "proved",
   "theorems": [
    "Verif.C79_full",
    "Verif.C79_tied",
    "Verif.C79_diag",
    "Verif.C79_spherical",
    "Verif.C79_full_ready",
    "Verif.C79_tied_ready",
    "Verif.C79_diag_ready",
    "Verif.C79_spherical_ready",
    "Verif.C79_last_empty",
    "Verif.C79_constant"
   ],
   "note": "The whole call of fit on a VariationalGaussianHMM object over XF, each covariance type (C79_full/tied/diag/spherical), with exact digamma/gammaln/inv/slogdet (Sci.Exact), eigvalsh returning the spectrum, positive draws and real KMeans centres. VGaussCall lists the hypotheses: proper priors, 'c' in params only with 'm' (C66 shows what happens otherwise), clusters of at least as many samples as columns. For diag and spherical the answers claim needs variances above 2^-1022 (Resolved); the _ready theorems derive it for the default priors. C79_last_empty and C79_constant are findings; the former holds in any arithmetic."
  },
  {
   "property": "C80",
   "status": "proved",
   "theorems": [
    "Verif.C80_pure_categorical",
    "Verif.C80_pure_gaussian",
    "Verif.C80_keeps_gaussian",
    "Verif.C80_keeps_categorical",
    "Verif.C80_sample",
    "Verif.C80_sample_categorical",
    "Verif.C80_sample_gaussian",
    "Verif.C80_samples_categorical",
    "Verif.C80_columns",
    "Verif.C80_symbols",
    "Verif.C80_rejects",
    "Verif.C80_check_gaussian",
    "Verif.C80_check_categorical",
    "Verif.C80_full_row",
    "Verif.C80_full_mat",
    "Verif.C80_prior_rejected",
    "Verif.C80_no_iterations",
    "Verif.C80_fit_scalars",
    "Verif.C80_fit_scalars_categorical"
   ],
   "note": "Any arithmetic, any generator, any object. vcatSub_lawful/vgaussSub_lawful are the three laws of _check; aic/bic do not exist on the variational classes. C80_check_categorical is stated for emission concentrations that are matrices (atleast_2d turns the others into matrices first)."
  },
  {
   "property": "C81",
   "status": "proved",
   "theorems": [
    "Verif.C81_score",
    "Verif.C81_posteriors",
    "Verif.C81_map",
    "Verif.C81_categorical_double"
   ],
   "note": "In `RX \u03c1` with `Accurate \u03c1 u \u03b7 \u03a9`; `LogBudget` states the range and that the accumulated error stays below one. `C81_categorical_double` meets it for binary64, up to 1024 states and 2^17 samples. `exp` and `log` are taken as correctly rounded. Posteriors of impossible sequences are NaN and not covered (C81_posteriors assumes positive likelihoods). The log-probability that `decode(algorithm=\"map\")` returns is not bounded here."
  },
  {
   "property": "C82",
   "status": "proved",
   "theorems": [
    "Verif.C82_em_step",
    "Verif.C82_run",
    "Verif.C82_fit",
    "Verif.C82_fit_double"
   ],
   "note": "One EM step of CategoricalHMM with the log implementation under any accurate monotone rounding; whole fits by induction over the iterations; double precision with explicit constants. Rows whose total is below the accumulated underflow error are only shown to be probabilities. The comparison is with an exact step from the computed parameters, not with the exact iterates."
  },
  {
   "property": "C83",
   "status": "proved",
   "theorems": [
    "Verif.C83_log",
    "Verif.C83_log_variational",
    "Verif.C83_categorical",
    "Verif.C83_poisson",
    "Verif.C83_multinomial",
    "Verif.C83_gaussian",
    "Verif.C83_gaussian_full",
    "Verif.C83_gaussian_tied",
    "Verif.C83_variational_categorical",
    "Verif.C83_variational_gaussian_full",
    "Verif.C83_variational_gaussian_tied",
    "Verif.C83_variational_gaussian_diag",
    "Verif.C83_variational_gaussian_spherical",
    "Verif.C83_gmm_diag",
    "Verif.C83_gmm_full",
    "Verif.C83_gmm_tied",
    "Verif.C83_zero_row",
    "Verif.C83_zero_row_reported",
    "Verif.C83_rounded",
    "Verif.C83_rounded_in_range",
    "Verif.DemoOne.C83_demo"
   ],
   "note": "fitFromLog/VEmission.fitFromLog carry what fit writes. C83_log, C83_log_variational: format of the log and erasure, any arithmetic. C83_categorical, _poisson, _multinomial, _gaussian*, _gmm_*, _variational_*: when the convergence warning can appear. C83_zero_row, C83_zero_row_reported: the zero-row warning. C83_map_warns: witness of the spurious warning under a MAP prior. C83_rounded, C83_rounded_in_range: floating point. Message wording and the logger configuration are not modelled."
  },
  {
   "property": "C84",
   "status": "proved",
   "theorems": [
    "Verif.C84_probability",
    "Verif.C84_evidence",
    "Verif.C84_object",
    "Verif.C84_weights",
    "Verif.C84_mean"
   ],
   "note": "The evidence is the Bochner integral of the likelihood over the product of Dirichlet laws; C84_evidence is about the loop, C84_object about fit on an object. special functions by contract (Sci.Exact). Gaussian variational models are not covered."
  },
  {
   "property": "C85",
   "status": "proved",
   "theorems": [
    "Verif.C85_loop",
    "Verif.C85_categorical",
    "Verif.C85_poisson",
    "Verif.C85_multinomial",
    "Verif.C85_gaussian",
    "Verif.C85_variational_categorical"
   ],
   "note": "C85_loop is generic; instances for Categorical, Poisson, Multinomial, Gaussian (diag, spherical) and VariationalCategorical. Exact arithmetic."
  },
  {
   "property": "C86",
   "status": "proved",
   "theorems": [
    "Verif.C86_dirichlet",
    "Verif.C86_normal",
    "Verif.C86_mvn",
    "Verif.C86_gamma",
    "Verif.C86_wishart",
    "Verif.C86_wishart_one"
   ],
   "note": "klDiv is Mathlib's InformationTheory.klDiv. Wishart for all sizes (C86_wishart). Library routines by contract (Sci.Exact)."
  },
  {
   "property": "C87",
   "status": "proved",
   "theorems": [
    "Verif.C87_categorical",
    "Verif.C87_poisson",
    "Verif.C87_multinomial",
    "Verif.C87_gaussian_full",
    "Verif.C87_gaussian_tied",
    "Verif.C87_gaussian_diag",
    "Verif.C87_gaussian_spherical",
    "Verif.C87_gmm",
    "Verif.NormalLib.C87_library_exists"
   ],
   "note": "All five classes and covariance types, object level: the observations of sample(n) have the density exp(score). Probabilities sum to exactly one, implementation \"log\", global generator; the library draws have the documented laws (C87_library_exists shows such a library). Spherical GaussianHMM with variances one per state."
  },
  {
   "property": "C88",
   "status": "proved",
   "theorems": [
    "Verif.C88_positive",
    "Verif.C88_full",
    "Verif.C88_tied",
    "Verif.C88_diag",
    "Verif.C88_spherical",
    "Verif.C88_object_full",
    "Verif.C88_object_tied",
    "Verif.C88_object_diag",
    "Verif.C88_object_spherical"
   ],
   "note": "Lower bound against the evidence of the Gaussian model (Dirichlet, Wishart and normal priors), loop and object, all four covariance types; includes the bound on the number of iterations."
  },
  {
   "property": "C89",
   "status": "proved",
   "theorems": [
    "Verif.C89_weight",
    "Verif.C89_mean",
    "Verif.C89_covar",
    "Verif.C89_klMean",
    "Verif.C89_full",
    "Verif.C89_tied",
    "Verif.C89_diag",
    "Verif.C89_spherical"
   ],
   "note": "Averages over the normal-Wishart posterior, all four covariance types; library routines by contract (Sci.Exact)."
  },
  {
   "property": "C90",
   "status": "proved",
   "theorems": [
    "Verif.C90_categorical",
    "Verif.C90_full",
    "Verif.C90_tied",
    "Verif.C90_diag",
    "Verif.C90_spherical"
   ],
   "note": "Loop level (vcatFit, vgaussFit); diag and spherical for one feature, where the conjugate posterior is in the family."
  },
  {
   "property": "C91",
   "status": "proved",
   "theorems": [
    "Verif.C91_step",
    "Verif.C91_total",
    "Verif.C91_tendsto",
    "Verif.C91_stop"
   ],
   "note": "Loop level (catFit), exact arithmetic; the bound for start and transition probabilities is proved for every model class (Family.rstep_gain_step)."
  },
  {
   "property": "C92",
   "status": "proved",
   "theorems": [
    "Verif.C92_residual",
    "Verif.C92_equal",
    "Verif.C92_stop",
    "Verif.C92_rate",
    "Verif.C92_limit",
    "Verif.C92_approaches",
    "Verif.C92_maximum"
   ],
   "note": "Loop level (catFit), flat priors, exact arithmetic."
  },
  {
   "property": "C93",
   "status": "proved",
   "theorems": [
    "Verif.C93_derivative",
    "Verif.C93_critical",
    "Verif.C93_limit",
    "Verif.C93_strict"
   ],
   "note": "About the exact iteration catEM, which C91 shows to be what catFit computes; flat priors."
  },
  {
   "property": "C94",
   "status": "proved",
   "theorems": [
    "Verif.C94_vector_categorical",
    "Verif.C94_vector_multinomial",
    "Verif.C94_vector_poisson",
    "Verif.C94_poisson",
    "Verif.C94_negative",
    "Verif.C94_check_array",
    "Verif.C94_decoder",
    "Verif.C94_data",
    "Verif.C94_implementation",
    "Verif.C94_lengths",
    "Verif.C94_fit",
    "Verif.C94_v_decoder",
    "Verif.C94_v_data",
    "Verif.C94_v_implementation",
    "Verif.C94_v_lengths",
    "Verif.C94_v_fit"
   ],
   "note": "For an arbitrary class (`Sub`, `VSub`), so for all classes of the library; classes enter `C94_lengths` through `RowsKept`, proved for each. Messages are abbreviated in the model."
  },
  {
   "property": "C95",
   "status": "proved",
   "theorems": [
    "Verif.C95_categorical",
    "Verif.C95_multinomial",
    "Verif.C95_poisson",
    "Verif.C95_gaussian",
    "Verif.C95_gmm",
    "Verif.C95_announced",
    "Verif.C95_degenerate",
    "Verif.C95_fresh",
    "Verif.C95_all",
    "Verif.C95_quiet",
    "Verif.C95_variational_categorical",
    "Verif.C95_variational_gaussian"
   ],
   "note": "InitWarns for each point-estimate class (C95_categorical, C95_multinomial, C95_poisson, C95_gaussian, C95_gmm) and VInitWarns for the variational ones; C95_announced, C95_degenerate, C95_fresh, C95_all and C95_quiet are consequences for any class. Texts are constructors, not strings."
  },
  {
   "property": "C96",
   "status": "proved",
   "theorems": [
    "Verif.C96_categorical",
    "Verif.C96_poisson",
    "Verif.C96_multinomial",
    "Verif.C96_gaussian",
    "Verif.DemoGauss.C96_needs_means",
    "Verif.C96_gaussian_full",
    "Verif.C96_gaussian_tied",
    "Verif.C96_gmm_diag",
    "Verif.C96_gmm_spherical",
    "Verif.C96_gmm_full",
    "Verif.C96_gmm_tied"
   ],
   "note": "whole runs of fit on recoded data are equal up to the recoding, for all five non-variational classes and all covariance types (GMMHMM with default priors); a counterexample shows the proviso on params is needed for GaussianHMM"
  },
  {
   "property": "C97",
   "status": "proved",
   "theorems": [
    "Verif.C97_categorical",
    "Verif.C97_poisson",
    "Verif.C97_multinomial",
    "Verif.C97_gaussian",
    "Verif.C97_gaussian_full",
    "Verif.C97_gaussian_tied",
    "Verif.DemoGauss.C97_needs_floor",
    "Verif.C97_gmm_diag",
    "Verif.C97_gmm_spherical",
    "Verif.C97_gmm_full",
    "Verif.C97_gmm_tied"
   ],
   "note": "whole runs of fit for all classes trained by EM; C97_needs_floor shows that the floor of the variance divisor breaks it"
  },
  {
   "property": "C98",
   "status": "proved",
   "theorems": [
    "Verif.C98_spherical",
    "Verif.C98_diag",
    "Verif.C98_full",
    "Verif.C98_tied",
    "Verif.C98_otherwise"
   ],
   "note": "All four covariance types, any FloatLike numbers. The flags meansInt and covarsInt stand for the dtype of the arrays."
  },
  {
   "property": "C99",
   "status": "proved",
   "theorems": [
    "Verif.C99_gauss_diag",
    "Verif.C99_gauss_spherical",
    "Verif.C99_gauss_full",
    "Verif.C99_gauss_tied",
    "Verif.C99_gmm",
    "Verif.C99_vgauss"
   ],
   "note": "Over XF; hypothesis SquaresFit because numpy squares int64 arrays in int64. GMMHMM and VariationalGaussianHMM for every covariance type at once."
  },
  {
   "property": "C100",
   "status": "proved",
   "theorems": [
    "Verif.C100_categorical",
    "Verif.C100_variational",
    "Verif.C100_categorical_training",
    "Verif.C100_variational_training",
    "Verif.C100_variational_one_column"
   ],
   "note": "methods on arrays with d columns as `catWide d`, `vcatWide d`; the deprecation warning itself is not modelled"
  },
  {
   "property": "C101",
   "status": "proved",
   "theorems": [
    "Verif.C101_gauss_diag",
    "Verif.C101_gauss_spherical",
    "Verif.C101_gauss_full",
    "Verif.C101_gauss_tied",
    "Verif.C101_gmm",
    "Verif.C101_vgauss",
    "Verif.C101_poisson",
    "Verif.C101_multinomial"
   ],
   "note": "One column broadcast against nf features, for the four classes and every covariance type; MultinomialHMM raises; fit refuses."
  },
  {
   "property": "C102",
   "status": "proved",
   "theorems": [
    "Verif.C102_poisson",
    "Verif.C102_multinomial",
    "Verif.C102_poisson_reals",
    "Verif.C102_poisson_impossible"
   ],
   "note": "PoissonHMM and MultinomialHMM on integer-valued floats (equality with the integers, training included for Poisson); Poisson weights at every real number; MultinomialHMM.fit refuses floats"
  },
  {
   "property": "C103",
   "status": "proved",
   "theorems": [
    "Verif.C103_repeats",
    "Verif.C103_concatenated",
    "Verif.C103_seeded",
    "Verif.C103_longer",
    "Verif.C103_categorical",
    "Verif.C103_poisson",
    "Verif.C103_multinomial",
    "Verif.C103_gaussian_full",
    "Verif.C103_gaussian_tied",
    "Verif.C103_gaussian_diag",
    "Verif.C103_gaussian_spherical",
    "Verif.C103_gmm"
   ],
   "note": "repetition, impossible steps and periodicity for every class and number type; law of the continued sample for all EM classes under the assumptions on the library of C87"
  },
  {
   "property": "C104",
   "status": "proved",
   "theorems": [
    "Verif.C104_poisson",
    "Verif.C104_gaussian_diag",
    "Verif.C104_gaussian_spherical",
    "Verif.C104_excess",
    "Verif.C104_mass",
    "Verif.C104_not_normalised"
   ],
   "note": "Answers (score, predict_proba, decode, predict) for PoissonHMM and GaussianHMM diag/spherical on d columns with one feature, and the integral of exp(score)."
  },
  {
   "property": "C105",
   "status": "proved",
   "theorems": [
    "Verif.C105_wrap",
    "Verif.C105_same_diag",
    "Verif.C105_same_spherical",
    "Verif.C105_step",
    "Verif.C105_negative_diag",
    "Verif.C105_negative_spherical"
   ],
   "note": "diag and spherical (the only types that square X directly). C105_wrap says what arithmetic in a type is; C105_same_* when the squares fit; C105_step compares one iteration with the same numbers as reals; C105_negative_* for fit. Exact arithmetic outside the integer type."
  },
  {
   "property": "C106",
   "status": "proved",
   "theorems": [
    "Verif.C106_sample",
    "Verif.C106_categorical",
    "Verif.C106_poisson",
    "Verif.C106_multinomial",
    "Verif.C106_gaussian",
    "Verif.C106_gmm",
    "Verif.C106_vcategorical",
    "Verif.C106_vgaussian"
   ],
   "note": "All estimator classes. C106_sample is the generic statement; any arithmetic."
  },
  {
   "property": "C107",
   "status": "proved",
   "theorems": [
    "Verif.C107_categorical",
    "Verif.C107_poisson",
    "Verif.C107_multinomial",
    "Verif.C107_gaussian",
    "Verif.C107_gaussian_full",
    "Verif.C107_gaussian_tied",
    "Verif.C107_gmm_diag",
    "Verif.C107_gmm_spherical",
    "Verif.C107_gmm_full",
    "Verif.C107_gmm_tied",
    "Verif.C107_poisson_pooled",
    "Verif.C107_gaussian_pooled"
   ],
   "note": "All classes and covariance types; pooled values for PoissonHMM and GaussianHMM diag. Exact arithmetic."
  },
  {
   "property": "C108",
   "status": "proved",
   "theorems": [
    "Verif.C108_refused",
    "Verif.C108_score",
    "Verif.C108_fit",
    "Verif.C108_fit_gmm",
    "Verif.C108_after_fit",
    "Verif.C108_reassign"
   ],
   "note": "GaussianHMM, all strings and methods; fit of GMMHMM; any arithmetic."
  },
  {
   "property": "C109",
   "status": "proved",
   "theorems": [
    "Verif.C109_unusable",
    "Verif.C109_retype",
    "Verif.C109_stays",
    "Verif.C109_after_fit"
   ],
   "note": "all four types, every public method of GMMHMM; types with as many or more axes are not covered"
  }
 ]
}
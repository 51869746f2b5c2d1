# A Lean 4 model of hmmlearn

This file is written before the proofs and kept up to date. It says what is
modelled, how each property of `properties.jsonl` is stated and proved, what is
trusted and what is left out.

## 1. Numbers

hmmlearn computes with IEEE doubles. The model is written once, generically,
over a type class `FloatLike α` (`Verif/Num/FloatLike.lean`) that offers exactly
the operations the code uses (`+ - * /`, `<`, `<=`, `==`, `-inf`, `nan`, `exp`,
`log`, ...). It has four instances.

* `Float`: Lean's doubles. The model runs; `Verif/Tests.lean` evaluates it on
  the numbers found in hmmlearn's own test-suite. These are tests of the model's
  fidelity, not proofs.
* `XF` (`Verif/Num/XF.lean`): `nan | ninf | pinf | fin (r : ℝ)` with the IEEE-754
  rules for the special values (`inf - inf = nan`, `0/0 = nan`, `x/0 = ±inf`,
  `log 0 = -inf`, `log (<0) = nan`, comparisons with NaN are false, ...) and exact real
  arithmetic on finite values. All theorems about values are about this
  instance. What it idealises: rounding, overflow and underflow of finite
  values, signed zero. What it keeps: every path by which `-inf`, `inf` and NaN
  arise and spread, hence every error branch and degenerate result.
* `RX ρ` (`Verif/Num/Rounded.lean`): as `XF`, but every finite result is passed through a rounding
  `ρ`, any monotone map from the reals to "finite or `-inf`". `Num/Double.lean` constructs IEEE double
  precision with gradual underflow as one (its exponent is unbounded above). Used for C09, C38, C77, C81 and C82.
* `TX τ` (`Verif/Num/Trapped.lean`): as `XF`, but every finite result, also of `exp` and `log`, is
  replaced by one with relative error at most `u`, or by NaN where `τ` says that it leaves the range
  (overflow, subnormal). A theorem with the hypothesis that a result is not NaN is thus about the runs
  in which nothing left the range. `Num/Binary64.lean` constructs IEEE double precision, rounding to
  nearest even, as one such `τ` with `u = 2^-53`. Used for C75 and C76.

Properties that do not depend on exact arithmetic (C09, structure, control flow)
are proved for every `FloatLike` type or for every ordered type with
a monotone addition, so they do hold under rounding.

## 2. Layout

| module | models |
| --- | --- |
| `Verif/Num/*` | numbers (section 1) |
| `Model/Hmmc.lean` | `ext/_hmmc.cpp`, every kernel, on arguments whose shapes match |
| `Model/HmmcRaw.lean` | the same kernels statement by statement: arrays of any shape, mutable memory, loops |
| `Model/Utils.lean` | `utils.py` `normalize`, `log_normalize`; `_utils.py` `split_X_lengths` |
| `Model/Py.lean`, `Model/NdArray.lean`, `Model/Err.lean` | Python and numpy semantics that matter: slices, negative indices, shapes, exceptions |
| `Model/Base.lean` | `base.py`: `score`, `score_samples`, `decode`, `predict_proba`, posteriors, M-step of start and transition probabilities |
| `Model/Monitor.lean` | `base.py` `ConvergenceMonitor` |
| `Model/Train.lean` | `base.py` `_do_estep`, `fit` loop, `_do_mstep`, generic in an `Emission` (the hooks of a subclass) |
| `Model/Categorical.lean`, `Poisson.lean`, `Multinomial.lean`, `Gaussian.lean`, `Gmm.lean` | the hooks of `_emissions.py`, `hmm.py`, `stats.py`, per class and per covariance type |
| `Model/Covars.lean` | `_utils`/`utils` covariance validation, `fill_covars`, the `covars_` property |
| `Model/Estimator.lean`, `Estimators.lean` | the estimator objects: attributes set or unset, `random_state`, `_init`, `_check`, `n_features`, calls in any order |
| `Model/GmmEstimator.lean` | the estimator object of `GMMHMM`: hyper-parameter arrays, `_init`, `_check`, sampling |
| `Model/Criteria.lean` | `aic`, `bic`, `_get_n_fit_scalars_per_param` |
| `Model/Stationary.lean` | `get_stationary_distribution` |
| `Model/Variational.lean` | `VariationalBaseHMM` and `VariationalCategoricalHMM` |
| `Model/VGaussian.lean` | `VariationalGaussianHMM`, four covariance types |
| `Model/VEstimator.lean`, `VGaussEstimator.lean` | the estimator objects of the variational classes |
| `Model/Kl.lean` | `_kl_divergence.py`, `_utils.logdet` |
| `Verif/Spec/*` | specifications, written without any model helper: sums over all state paths, densities, probability measures |
| `Verif/Proofs/*` | helper lemmas |
| `Verif/Props/*` | the property theorems `Cnn_...` and the non-vacuity examples |

Arrays: a row of `nc` numbers is `Fin nc → α`; a lattice or data matrix is a
`List` of rows (time first). Loops are folds in source order. An exception is a
value of `PyErr` in `Except`. Access outside an array in C++ is the explicit
error `PyErr.undefinedBehaviour`.

## 3. Per property

*Path spec* = sum over all functions `z : Fin T → Fin nc` of
`startprob[z 0] * prod transmat[z t, z (t+1)] * prod lik[t, z t]`.
"Any arithmetic" = proved for every `FloatLike` type. Otherwise the theorem is about `XF`.

| id | what is modelled | how it is stated and proved |
| --- | --- | --- |
| C01 | `forwardLog`, `score` | score = log of the path spec; `log` turns `(+,*)` into `(logsumexp,+)`; induction on the frames |
| C02 | `forwardScaling`, `score` | scaled row = row / product of sums; `ValueError` iff some partial sum is below 1e-300 |
| C03 | both implementations | both equal the path spec |
| C04, C05 | `backward*`, posteriors, `predict_proba` | forward-backward identity by induction on `t`; rows are distributions iff the likelihood is positive, NaN otherwise |
| C06, C07 | `compute*XiSum`, `_do_estep` | expected counts of the path spec; marginalisation |
| C08, C10, C11 | `viterbi`, `decode` | dynamic-programming induction; traceback invariant; bracket against the path spec |
| C09 | same code over `RX ρ` | optimality of the rounded score, from monotone rounding only |
| C12, C13 | `decodeMap` | argmax lemma, exchange of sums; what `log_prob` is, a violation |
| C14, C15, C16 | `splitXLengths`, every method with `lengths` | list induction; Python slice semantics; witnesses |
| C17 | `Model/HmmcRaw.lean` | any arithmetic: each kernel either raises on exactly the bad shapes, or runs without out-of-bounds or uninitialised access and computes what `Model/Hmmc.lean` says |
| C18, C19, C20 | `doMstep`, `fit` loop | field arithmetic; invariants over the iterations |
| C21, C22, C62 | E-step, M-step, whole `fit` | generic EM inequality (Jensen and Gibbs) over an abstract `Family`, instantiated per class |
| C23, C24, C60 | monitor and `fit` loop | loop invariants, any arithmetic |
| C25, C34, C39, C59 | estimator objects | invariants over arbitrary histories of method calls |
| C26, C27, C58 | whole `fit` | simulation between two runs |
| C28, C30, C31, C32, C33, C35 | `_check`, setters, `_check_and_set_n_features`, indexing | exact acceptance conditions, consequences for later calls, witnesses for what slips through |
| C29, C42–C48, C61 | M-steps of every class | closed form and optimality over the reals |
| C36, C37, C38, C64 | `sample` over a generator state | length and range for every generator; the law as a probability measure for an ideal generator |
| C68, C69, C70 | `GMMHMM` objects | exact conditions for `sample`, seeded `_init`, hyper-parameters; violations with witnesses |
| C71 | a whole estimator object, every class | `Answers` (what the five methods return, on every data set) proved from what the attributes hold, through `_check` and the array conversions |
| C72 | `fit` of a whole object, count and symbol classes | `TrainsFrom` (what the call does to the object) from what the attributes hold and a generator whose draws are positive; the EM theorems carried through `_init`, `_check` and the array conversions |
| C73 | `fit` of a whole `GaussianHMM` object | `GaussForm` (what one covariance type stores, starts from and weighs by) with one proof of `_init` + `_check` + loop, instantiated four times; sample covariance proved positive semidefinite, so the template passes the setter; `KMeans` is a parameter whose centres are real |
| C74 | `fit` of a whole `GMMHMM` object | `GmmForm` (what one covariance type stores, starts from and weighs by) tied to the code of the type by `GmmLink`; one proof of `_init` + `_check` + loop, instantiated four times; `KMeans` is a parameter with real centres, `multivariate_normal` one with real values |
| C75 | scaling kernels, `score`, posteriors over `TX τ` | relative-error algebra (`Within q k`): sums and products of non-negative numbers only add up errors; forward and backward rows by induction on the samples; scalings cancel; error of the log from the predictive probabilities |
| C76 | `emStep`, `fitFrom` of the categorical family over `TX τ` | C75 for the statistics, the same algebra for the M-step, induction on the iterations; exact EM (C21) gives the monotone history; a total rounding gives a run without NaN |
| C77 | Viterbi, `decode` over `RX ρ` | C09 (the path has the largest rounded score) and the error of a sum of rounded logarithms, by induction on the samples and on the sequences |
| C78 | `Model/VEstimator.lean`: the object `VariationalCategoricalHMM`, `VariationalBaseHMM._init`, `_check`, `fit`, inference methods | symbolic execution of `_init` and `_check` over the contract of the generator, then C53–C55 for the loop (`VFamily`), then C71 for the fitted object |
| C79 | `Model/VGaussEstimator.lean`: the object `VariationalGaussianHMM`, its `_init` (KMeans, `bincount`, template covariance), `_check`, four covariance types | symbolic execution of `_init` over the contracts of the generator and of `KMeans` (real centres), cluster sizes as counts of nearest centres; C65 for the loop, C71 for the fitted object; the raising theorems hold in any arithmetic |
| C80 | `Spec/VCalls.lean`: inference calls and histories on a variational object (same `Call`/`Action` as C59) | `_check` satisfies three laws (frame, idempotent, blind to the generator), from which purity follows for any history; case analysis of `_check` for the accepted shapes; broadcasting against `Spec/Broadcast.lean` (axes aligned from the right); free parameters as cardinalities; all in any arithmetic |
| C81 | `logsumexp`, `forward_log`, `backward_log`, `log_normalize`, `score`, `score_samples`, `decode` over `RX ρ` | `LogWithin e x p` (`x` is `log p` up to `e`) is kept by `log`, `+`, `-`, `logsumexp` with explicit losses; induction over the samples in both directions against the real lattices; the running sum over the sequences |
| C82 | the E-step and the M-step of `CategoricalHMM` with `implementation="log"` over `RX ρ`: `logaddexp`, `_hmmc.log_xi_sum`, `_accumulate_sufficient_statistics_log`, `_do_mstep`, `fit` | C81 for the lattices; `CountNear δ a x y` (`x` is the count `y` up to a relative and an absolute error, zero kept) through `exp`, `logaddexp`, sums over samples and sequences, prior, mask, normalisation; sums of rounded non-negative numbers dominate their terms, so new parameters stay in `[0, 1]` and on the grid; induction over the iterations |
| C83 | `ConvergenceMonitor.report` with its output, the loop of `fit` with its warnings (`fitLoopLog`), for point and variational estimators | invariant of the loop from any monitor state; erasing the log gives the loop of the other properties; the monotonicity theorems (C21, C22, C55, C62, C65) and the roundoff bound (C76) for the absence of warnings; `mapUpdate_flat` for zero rows |
| C84 | `vcatFit` (loop) and `vcatSub.fit` (object); spec: `dirichlet a` is the law of independent gamma variables divided by their sum, `catEvidence` the integral of the likelihood over the prior | the likelihood is a sum of products of parameters (`IsPoly`); Dirichlet moments of real order from gamma integrals (the sum of gammas is gamma, by the moment generating function); each product at `exp E[ln p]` times `exp (-KL)` is at most its prior moment (log-convexity of gamma); C53 for the run. `E[ln p_i] = ψ(a_i) - ψ(Σ a)` by differentiating the moments |
| C85 | the loops of `fit` with the convergence test (`fitLoop`, `vfitLoop`, `Monitor.converged`) | all values but the last two consecutive ones grow by at least `tol`, induction; bounds: likelihoods of discrete data are at most one, normal densities at most `(2π 2^-1022)^(-1/2)`, C84; C22, C29, C53 for the reported values |
| C86 | the functions of `_kl_divergence.py` (`Kl.dirichlet`, …) against Mathlib's `klDiv` of the laws `dirichlet`, `gaussianReal`, `mvnLaw` (Mathlib's `multivariateGaussian` on plain vectors), `gammaMeasure` | if `Q` has density `exp g` with respect to `P` then `klDiv Q P = ∫ g dQ`; the Dirichlet density from the moments (measures on the unit cube are determined by moments), the multivariate normal density by change of variables; then the moments of the sufficient statistics, and C56. Wishart (`wishart ν W` of C88): the moments `E[det(Λ)^(a/2) exp(-tr(ΛC)/2)]` are Laplace transforms of `(Λ, log det Λ)`, which determine the law, so one Wishart law has the expected density with respect to another (`wishart_density`), and their derivatives are `E[Λ]` and `E[log det Λ]` |
| C87 | `sample` (C64) and `score` (C71) of one object of each class, side by side | the law of the observations `obsLaw` (sum over hidden paths of the product of the emission laws) has the likelihood as its density (`obsLaw_density`); `sample` draws from `obsLaw` (C64 summed over paths), `score` returns the log of the likelihood (C71). The emission laws have the densities the classes evaluate (`mvnLaw_density`, mixtures, counts). `numpy`'s generators are parameters with the documented laws (`C87_library_exists`: such a library exists) |
| C88 | `vgaussFit` (loop) and `vgaussSub.fit` (object), four covariance types; spec: `wishart ν W` by Bartlett's decomposition (independent chi-squared and normal entries of a triangular factor), `gaussEvidence` the iterated integral of the density of the data over Dirichlet, Wishart and normal priors. For `diag` and `spherical` the law of the precisions is the full Wishart law with a scale matrix of that shape, as in the divergence the code computes | the likelihood is a sum over assignments of samples to states (`isTerms_dataLikelihood`); means integrated out by completing the square (`lintegral_means`); `E[det(Λ)^(a/2) exp(-tr(ΛC)/2)]` for the Wishart law by integrating the triangular factor row by row (`lintegral_wishart`); so the evidence has a closed form (`gaussEvidence_eq`), and each summand dominates that of the bound by nonnegativity of the divergences; C65, C79 for the run, C85 for the number of iterations |
| C89 | `_compute_subnorm_log_likelihood`, the emission part of `_compute_lower_bound`, `_do_mstep` (`VGaussian.loglik`, `VGaussian.bound`, `NW.covar`); spec: `NW.Avg`, averages over the normal-Wishart law. That `wishart` is the usual law is checked by `wishart_outer`: for an integer `k` at least the size it is the law of `Σ x_i x_iᵀ` with `k` independent normal vectors `x_i` | averages of quadratic forms under `mvnLaw`, `E[Λ]` and `E[log det Λ]` of C86, `klDiv` of normal laws with the same `Λ` is affine in `Λ`, so its average is its value at the average |
| C90 | `vcatFit` and `vgaussFit` with one component; the spec of C84 and C88 | with one state the likelihood is one product (`dataLikelihood_single`), the expected counts are counts, the Dirichlet terms vanish; the inequalities of C84 and C88 are equalities at the conjugate update; the convergence test fails to stop only while the gain is at least `tol`. For `diag` and `spherical` with more features the posterior scale is not of the allowed shape and the bound stays below, so they are left out |
| C91 | `catFit` (loop of `fit`, `_do_mstep`); spec `stepSize`, `hellinger` (Spec/SmallStep) | the gain of a row update is the relative entropy of the new to the old row times the counts, which is at least the squared Hellinger distance (`gibbs_hellinger`, from `log x ≤ x - 1` at the square roots); added to the Baum-Welch bound (`Family.rstep_gain_step`, which holds for start and transition probabilities of every model class); telescoping; C85 for the reason of stopping |
| C92 | as C91; spec `NearlySolves`, `LikelihoodEquations` | the residual of a row is bounded by its count times the Hellinger distance (`residual_le`); sums of C91; continuity of the expected counts where the likelihood is positive; compactness of the set of models |
| C93 | `catEM` (the exact iteration, shown in C91 to be what `catFit` computes) and `logL`; spec `towards`, `Feasible` | derivative of the sum over paths of products (`hasDerivAt_logL`); row by row: at proportional counts the derivative is `N (Σ q - Σ p) ≤ 0`, towards the EM update it is `N (1 - Σ p) + Σ (c - N p)²/(N p) ≥ 0` |
| C94 | the checks at the start of `_score`, `decode`, `fit` (`Sub.scoreBody`, `Sub.decodeBody`, `Sub.fit` and their `VSub` counterparts), `checkArray`, `algOf`, `pyOr`, `implOf`, `splitXLengths`, `atleast2d`, `Poisson.pmf`; spec `AcceptableX`, `chosen`, `LengthsCut`, `LengthsRaise`, `poissonZ` | case analysis for an arbitrary class `S`; messages are not modelled word by word; negative counts through the general answer theorem of C71 |
| C95 | `_needs_init` with its warning, the size check of `_init` with its warning, and `_init` of all classes in a monad that collects warnings (`Model/InitLog.lean`); spec `overwrites`, `tooSmall`, `initWarnings` | simulation of the collecting `_init` by the plain one, then case analysis; the wording is modelled as constructors carrying the attribute name, code and numbers |
| C96 | `fit` of `CategoricalHMM`, `PoissonHMM`, `MultinomialHMM`, `GaussianHMM` and `GMMHMM` (all covariance types; `GMMHMM` with default priors); spec `recode`, `RecodedFit`, `cols`, `Axes`, `Motion` (`Spec/Recode.lean`, `Props/Recode.lean`, `Props/RecodeFull.lean`) | every family of emissions commutes with the recoding (`Family.Recode`), whence a simulation of whole runs; real arithmetic with infinities and NaN, since rounding breaks the equality; `C96_needs_means` shows the proviso is needed |
| C97 | `fit` of the same classes; spec `copies`, `stronger`, `Coarser`, `CopiedFit`, `FloorUnused` (`Spec/Copies.lean`, `Props/Copies.lean`) | expected counts, log-likelihood and prior terms are all multiplied by `k`, every M step is homogeneous of degree 0 (`Family.Copies`), whence a simulation of whole runs; the floor condition is stated for the models `fit` reaches (`Proofs/Reach.lean`); real arithmetic with infinities and NaN; `C97_needs_floor` shows where it fails |
| C98 | `gmmInPlace`, the flags `meansInt`, `covarsInt` of `GmmAttrs` (whether `m_n` and `c_n` are integer arrays); spec `AddsToInts`, `IntsStopFit` (`Spec/GmmInts.lean`, `Props/GmmInts.lean`) | `_init` and `_check` commute with forgetting the types (`Py.Comm asFloats`); the first sequence of the first E step is refused (`emStep_inPlace`), so the loop ends with what it read |
| C99 | all methods of the classes for real data; spec `IntsAreReals`, `SquaresFit` (`Spec/IntData.lean`, `Props/IntData.lean`) | the methods use `X` only through the numbers of rows and columns and `XArr.floatRows` (`Sub.ReadsAsFloats`) |
| C100 | `catWide d`, `vcatWide d` (`Model/WideSymbols.lean`: one observation is a row of `d` integers, every sequence is flattened where the likelihoods and statistics are computed); spec `inColumn`, `timesLengths`, `ReadsRowByRow`, `TrainsRowByRow`, `WideFitRaises` (`Spec/WideSymbols.lean`, `Props/WideSymbols.lean`) | cutting by lengths commutes with flattening, also for negative indices (`splitXLengths_flat`); the two models agree on every sequence (`AgreeAt`) |
| C101 | `gaussRows`, `poisRows`, `countRows` (`Model/Estimators.lean`: numpy broadcasts one column against `nf` features); spec `repeated`, `OneColumnRepeated`, `ColumnsRaise`, `FitRefuses` (`Spec/OneColumn.lean`, `Props/OneColumn.lean`) | the two bodies of the inference methods agree on both arrays because they only use the rows and their number. Several columns against a model of one feature broadcast the other way round; these are in C104 (`notImplemented` here) |
| C102 | `toInt?` (`Num/FloatLike.lean`), `countOf`, `poisRows`, `countRows` (`Model/Estimators.lean`); spec `poissonWeightR`, `poissonR`, `InfersFromFloats`, `TrainsFromFloats`, `RefusesFloats` (`Spec/FloatCounts.lean`, `Props/FloatCounts.lean`) | both arrays give the same rows; the density through `answers_of`. scipy's `poisson.logpmf` is -inf off the natural numbers, modelled by the count -1. In training such an entry makes all posteriors of its sequence NaN (or raises), so the number that stands for it in the statistics does not matter. Multinomial densities at floats that are no integers are not modelled |
| C103 | `Sub.sample` called twice; spec `sampleTwice`, `Follows`, `ImpossibleStep`, `Continues`, `Chained` (`Spec/Continue.lean`, `Props/Continue.lean`, `Props/ContinueClasses.lean`) | law of the loop together with the generator it leaves (`runs_loop_law`), then the two calls multiply (`two_calls`); pigeonhole on the last states for the periodicity. The library assumptions are those of C87 and are satisfiable together (`C87_library_exists`) |
| C104 | `poisMany`, `gaussDiagMany`, `gaussSphericalMany` (`Model/ManyColumns.lean`: the same classes with rows of `d` numbers, inference only; `full` and `tied` raise in `solve_triangular` and are left out); spec `iidPoisson`, `onceNormalised` (`Spec/ManyColumns.lean`, `Props/ManyColumns.lean`) | the log-density computed is the logarithm of the weight (`logDensityMany_fin`), then `answers_of`; the integral from the multivariate normal law |
| C105 | `IntType`, `accDiagInts`, `emissionDiagInts`, `emissionSphericalInts`, `gaussDiagInts`, `gaussSphericalInts` (`Model/IntWidth.lean`: `X**2` in the type of the array, everything else in floating point); spec `InType`, `SquaresIn`, `lost`, `LoudFor`, `NegativeVariances` (`Spec/IntWidth.lean`, `Props/IntWidth.lean`, `Props/IntWidthFit.lean`) | the class is a `Family` (`diagIntsFamily`, `sphIntsFamily`), so `fit` is an iteration of real formulas; the visits of all states sum to the number of samples, hence some state has more than its prior. Exact arithmetic: in double precision the densities with a clamped variance can overflow from the second iteration on |
| C106 | `axisIndex`, `sampleCoreAt`, `Sub.sampleAt`, `VSub.sampleAt` (`Model/StateIndex.lean`: `currstate` is an integer used as an index; `multiRowError` for the order of events in `MultinomialHMM`); spec `Names`, `startWritten`, `IndexedSample` (`Spec/StateIndex.lean`, `Props/StateIndex.lean`) | case distinction on the index, then the two bodies coincide; the checks leave `n_components` alone (`Sub.Lawful`) |
| C107 | the training functions of C58; spec `Twins`, `grandTotal`, `grandMean` (`Spec/Twins.lean`), `FitKeepsTwins` for mixtures; `Props/Twins.lean`, `Props/TwinsMean.lean` | equal states are a fixed point of their exchange, so C58 applied to a transposition gives the invariant; if all states are equal the posterior statistics are the totals divided by the number of states (`obsStat_equal`), and the last M-step is computed from these; data in `Props/TwinsDemo.lean`. Exact arithmetic: in floating point the order of summation over states may break ties |
| C108 | `covTypeOf`, `gaussNamed`, `gaussNamedFit`, `gaussNamedAic` (`Model/CovName.lean`: `GaussianHMM` as a function of the string; `gmmNamedFit` for `GMMHMM`); spec `CovNames`, `Refuses`, `OnlyChain`, `VarianceTable` (`Spec/CovName.lean`, `Props/CovName.lean`) | the part of `_init` before the dictionary lookup is shared with the valid classes (`initDone`); the two readings of `_covars_` agree on a table; objects in `Props/CovNameDemo.lean`. The other methods of `GMMHMM` and the variational class are not covered |
| C109 | `gmmTypeOf` (the four types of `GMMHMM`, `Spec/PriorAxes.lean`) over the model of `_fix_priors_shape` (`Model/GmmEstimator.lean`); spec `covPriorAxes`, `PriorHas`, `NoneReturns` | `np.broadcast_to` refuses a source with more axes; a successful check or fit leaves `covars_prior` with the axes of its type and the training loop does not touch it (`Props/PriorAxes.lean`); objects in `Props/PriorAxesDemo.lean`. Types with as many or more axes are not covered; the message of the error is simplified |
| C40, C41 | `stats.py` | equality with the multivariate normal density; Cholesky, triangular solve |
| C49, C50 | `normalize`, `log_normalize` | algebra, all degenerate rows |
| C51 | counts, `aic`, `bic` | `finrank` of the span of differences of valid parameters |
| C52 | `get_stationary_distribution` | linear algebra and Perron-type argument; `eig` is a parameter; `C52_value` says what is returned whatever the solver returns |
| C53–C55, C57, C63 | variational training, categorical | conjugate updates, monotone bound, whole runs |
| C56 | `_kl_divergence.py` | closed forms, non-negativity, zero at equality |
| C65–C67 | variational training, Gaussian | conjugate Normal-Wishart updates, monotone bound, the fitted model scores with posterior means; C66 is a violation |

## 4. Trusted base

* Lean's kernel. Axioms of every theorem: `propext`, `Classical.choice`, `Quot.sound` and no
  others (checked with `#print axioms` over the manifest). No `sorry`, no `native_decide`, no
  `bv_decide`, no own axioms.
* Mathlib, as checked by the kernel.
* The faithfulness of the model: definitions cite the lines they model; the code was never run
  here.

### Library routines that are parameters

Code outside the repository is never modelled as "some function": it is a parameter with a
contract, and for every contract an instance is constructed, so that no theorem is vacuous.

| routine | contract | instance |
| --- | --- | --- |
| `numpy.random.RandomState` | an abstract state with draws; for C37, C38, C64 ideal draws: independent, uniform or of the named distribution (`Spec.Draws`) | `IdealStream` and the library built in `Props/SampleEmit.lean` |
| `scipy.linalg.eigvalsh` (C35) | returns the spectrum | Mathlib's `IsHermitian.eigenvalues` |
| `scipy.linalg.eig` (C52) | eigenpairs, none missed, real vectors for real eigenvalues (`EigSpec`) | `exists_eig` |
| `digamma`, `gammaln`, `inv`, `slogdet` (C53–C57, C65–C67) | `Sci.Exact` | `Sci.real` |
| `scipy.linalg.cholesky`, `solve_triangular` | transcribed algorithms, not parameters | |
| `sklearn.cluster.KMeans` | any result of the right shape (C25, C39, C69), real centres and labels of the nearest one (C73, C74, C79) | |
| `RandomState.choice` (C64, C68) | transcribed: tolerance, normalised cumulative sums | |
| sorting, `bincount`, `einsum`, `logsumexp`, `np.unique` | transcribed | |

### What the numbers leave out

Rounding is absent from `XF`. Theorems about values are statements about exact real arithmetic with
IEEE special values; C09, C38 (any monotone rounding), C77, C81, C82 (monotone rounding with
relative error `u` or absolute error `η`), C75, C76 (relative error `u`) cover rounding,
and everything marked "any arithmetic" does not depend on it. C75 and C76 say nothing about runs in
which a result overflows or becomes subnormal, and assume `exp` and `log` as accurate as the
operations. Overflow, denormals, signed zero are not modelled (the clipping constants
`1e-300`, `tiny`, `1e-5`, `1e-7` of the code are).

### What is not modelled

* Overflow of integer arrays: `X**2` (_emissions.py:158) is computed in the integer type of `X` and wraps around in
  numpy.  The classes of `Model/Estimators.lean` convert to floating point first, so C99 asks for squares below `2^63`
  (the array is then meant to be `int64`); C105 models the arithmetic of the type, for all types.
* Deprecated and purely cosmetic code: `__repr__`, the wording of messages, the warnings of `__init__`
  and `_check` (those of `_init`, of `fit` and the `verbose` output are modelled, C95 and C83), docstrings,
  scikit-learn's `get_params`/`clone` machinery.
* `KMeans`, and therefore the quality of initial means.
* For the variational objects: attributes of shapes that `_check` lets through by accident (see
  `VSub.ready`), an invalid `covariance_type`.
* For `GMMHMM`: assigning `n_mix` or (beyond C109) `covariance_type` after construction, invalid values of these (except in `fit`, C108),
  `multivariate_normal` failing on NaN.
* In `ext/_hmmc.cpp`: `int` loop counters of sizes beyond `2^31`, strides, the interpreter lock.
* Multithreading: there is none in the code.

## 5. Findings

Where the code does not do what its documentation says, the theorem states what it does and a
concrete witness is proved.

| | |
| --- | --- |
| C13 | `decode(algorithm="map")` returns a sum of probabilities as `log_prob` |
| C16, C17 | a zero-length sequence, or `n_components = 0`, makes the log kernels and `viterbi` read outside an array (MAP decoding of a zero-length sequence raises ValueError instead) |
| C24 | setting `n_iter` after construction does not raise the cap held by the monitor |
| C28 | EM can return all-zero transition rows, after which every call raises |
| C30, C35 | validation accepts negative probabilities, NaN covariances, wrong numbers of rows |
| C32 | negative symbols index the emission table from the end in `score`/`decode` |
| C36 | `sample(0)` returns one sample |
| C39 | a second seeded `fit` of some classes continues the first one's stream |
| C45, C96, C97 | covariances trained without means can be far too large, and depend on where the origin of the data is and on how often the data are repeated |
| C98 | `GMMHMM(means_prior=0, means_weight=0)`, the defaults of `GaussianHMM`, cannot be trained: `fit` raises `TypeError` (an in-place addition of floats to an integer array) |
| C100 | on a symbol array with several columns `bic` counts rows instead of symbols, and `VariationalCategoricalHMM.fit` raises ValueError although its `score` and `decode` accept the array |
| C101 | the inference methods of `GaussianHMM`, `GMMHMM`, `VariationalGaussianHMM` and `PoissonHMM` do not look at the number of columns: data with one column is silently scored as if every feature had that value, while `fit` of the same object raises ValueError |
| C102 | `MultinomialHMM` scores float counts but `fit` of the same array raises ValueError; `PoissonHMM` trains on floats that are no counts as well (their weight is zero) and a single such entry makes the score -inf |
| C103 | the example in the docstring of `sample` repeats a state: the second call returns `currstate` as its first element, so concatenating the samples yields a self-transition the chain may forbid; with an integer `random_state` the continued samples repeat periodically |
| C104 | a model with one feature scores data with several columns; `GaussianHMM` then counts the normalising factor of one column only, so `exp(score)` does not integrate to one and the posteriors favour states of large variance |
| C105 | `GaussianHMM.fit` (`diag`, `spherical`) on integer arrays squares the data in their type: with `int16` amplitudes above 181 the squares wrap around silently and the fitted variances are wrong, even negative |
| C106 | `sample(currstate=-1)` is accepted: it samples from the last state but returns -1 as the first state |
| C107 | states initialised with equal parameters are never separated by `fit`; if all are equal the result is that of a single state fitted to the pooled data |
| C108 | a misspelt `covariance_type` makes `fit` raise `KeyError` instead of the `ValueError` of `_check`, which `fit` cannot reach; the object then counts as fitted |
| C109 | changing `covariance_type` of a used `GMMHMM` to a type with fewer axes makes it unusable, because the hyper-parameter `covars_prior` was overwritten by an array of the old shape; even `fit` raises |
| C46 | spherical GMM covariances use a wrong divisor and can be negative |
| C47 | the Poisson M-step is not the documented posterior mean |
| C51 | GMMHMM counts too few weights |
| C52 | `get_stationary_distribution` is meaningless for reducible chains |
| C54, C63 | variational models without `s` or `t` in `params` end in `NotFittedError`/`AttributeError` |
| C61 | `covars_` of a fitted spherical GaussianHMM is not one matrix per state |
| C68 | `GMMHMM.sample` raises for weights that `_check` accepts |
| C69 | a seeded `GMMHMM.fit` may depend on the global `np.random` |
| C70 | `GMMHMM` overwrites its scalar hyper-parameters with arrays, so `n_components` cannot be changed after `fit` |
| C78 | the documented array `emissionprob_prior` of `VariationalCategoricalHMM` makes every `fit` raise |
| C79 | `VariationalGaussianHMM` counts cluster sizes with `np.bincount` without `minlength`: if no sample is nearest to the last centre (constant data, say) every `fit` raises; clusters smaller than the number of columns start from degrees of freedom for which no Wishart law exists |
| C80 | `VariationalGaussianHMM._check` does not call `super()._check()`: unlike the categorical class it accepts an object whose `startprob_posterior_` or `transmat_posterior_` are missing or of another shape |
| C66 | `VariationalGaussianHMM` with `params` `c` but not `m` can produce a negative scale |
| C83 | a MAP fit that increases its objective is reported as "not converging"; zero rows left by the last iteration (always, for `n_iter=1`) are not reported |

## 6. Testing the theorems

`seeded/LOG.jsonl` records the edits made to the model in a scratch copy, one line each, with the
theorems that failed and, where nothing failed, the theorems added.

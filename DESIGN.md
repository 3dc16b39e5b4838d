# Formal model of wd60622/conjugate

This directory holds a Lean 4 model of the Python package in `/repo` (read as
text, never run) and machine-checked proofs of the properties listed in
`properties.jsonl`. `MANIFEST.json` says which theorem settles which property.

## 1. How the code is modelled

### Numbers
Model functions of the library are generic in their number type: the same line
`alpha_prior + x` runs on floats, numpy arrays and SQL fields. The Lean model
keeps this: each model function is polymorphic over a carrier with exactly the
operators it uses (`Add`, `Sub`, `Mul`, `Div`, Python literals, `** c`), and is
then instantiated at

* `ℝ` - ideal real numbers (all correctness theorems);
* `Checked` - reals with Python's exceptions (`ZeroDivisionError`, complex result of a fractional power of a negative number);
* `NdArr` - numpy arrays with broadcasting, shape errors as values;
* `Expr` - syntax trees standing for SQL / symbolic objects;
* `Fl` - floats that round after every operation (C89 - C91), for any rounding rule meeting a stated hypothesis, and for binary floats with round-half-even and `p` significant bits.

The exponent of `Fl` is unbounded. `F64` (Ieee) is `np.float64` with its exponent range, subnormal numbers, signed zeros, infinities and `nan` (C109, C110).

### Distributions
Every dataclass of `conjugate/distributions.py` is a Lean structure with the
same fields. `.dist` is modelled as the very constructor call of `scipy.stats`
(a term of the inductive type `ScipyDist` recording name, shape arguments, loc,
scale). The meaning of these constructors (pdf / pmf formulas of SciPy's
reference, `pdf(x, loc, scale) = pdf((x-loc)/scale)/scale`) is written once in
`Verif/Scipy.lean` and is part of the trusted base.

### Specification
`Verif/Spec.lean` is short and does not mention the model: `IsPosterior`
(Bayes' rule with a normalising integral that is required to be positive),
`IsPredictive` (mixture integral), likelihood of a list as a product, empirical
sums, textbook densities. Theorems take **raw data** (lists of observations),
compute the sufficient statistics the docs ask for, call the model function, go
through `.dist` and compare densities.

### Control flow, exceptions, state
Functions that can fail return `Except PyErr _`. The decorator `validate_type`,
`SliceMixin.__getitem__` (with its swallowed exceptions), plot bounds (a state
machine), plot grids, labels, and the seeded sampling methods (randomness as an
explicit stream; an integer seed restarts the stream on every call) have their
own modules.

## 2. Trusted base
* Lean 4.33.0's kernel and Mathlib; only the axioms `propext`, `Classical.choice`, `Quot.sound` (each theorem's axioms are printed by `#print axioms`; the gate audits them). No axiom is added, no `sorry`, no `native_decide`.
* The transcription of each Python function (each definition cites file and lines).
* The specifications: `Verif/Spec.lean`, `Verif/SumSpec.lean`, `Verif/ArraySpec.lean` and the `namespace Spec` blocks at the head of the property files.
* What the code takes from Python, NumPy, SciPy and packaging, written out as definitions:
  * `Verif/Scipy.lean`, `Verif/MatScipy.lean`: densities and mass functions of the SciPy constructors used, with `loc` and `scale`;
  * `Verif/NdArr.lean`, `Verif/SampleShapes.lean`: broadcasting, `np.stack`, SciPy's `_squeeze_output`, and the rule of `_argcheck_rvs` for `rvs(size=...)` with array parameters;
  * `Verif/Slice.lean`: integer and list indexing of arrays, tuples and numbers, with `IndexError` / `TypeError`;
  * `Verif/Plot.lean`: `np.linspace`, `np.arange` (`ceil((stop - start) / step)` entries), `zip_longest`;
  * `Verif/PyVal.lean`: `+` on lists, tuples, arrays, numbers;
  * `Verif/Calls.lean`: keyword-only binding, defaults, `isinstance` with a class or a union, a union having no `__name__` (Python 3.10 - 3.13);
  * `Verif/Sampling.lean`: a generator is the stream of its deviates, a sampler takes a prefix of the stream; `random_state` is `None` (global), an integer (a new stream on every `rvs` call) or a `Generator` (shared and advanced);
  * `Verif/ConsistencySpec.lean`: independent data with a given law, concentration of a sequence of laws at a point, quantiles (`ppf`) and recovery of a parameter; used by C88 and C92, with `exists_iid` (`Verif/Lemmas/Concentration.lean`) showing such data exist;
  * `Verif/SampleSpec.lean`: what it means for SciPy's samplers to be exact; this is a hypothesis of C86, C87 and C94, not an axiom; `IIDSampleThen` says that the samples are independent with the given law and that the rest of the generator's stream is independent of them, and `exists_library` (`Verif/Lemmas/IdealSamplers.lean`) constructs samplers that meet it;
  * `Verif/Rvs.lean`, `Verif/RvsSpec.lean`: `.dist.rvs`, one sampler per frozen distribution, and what it means for them to be exact (a hypothesis of C94; `exists_frozen` in `Verif/Lemmas/Quantile.lean` constructs such samplers);
  * `Verif/Version.lean`: `.release` of a parsed version is a tuple of integers, compared as Python compares tuples;
  * `Verif/Float.lean`, `Verif/FloatSpec.lean`: each float operation is the exact one rounded to nearest (half to even), literals are rounded, `** c` is within two units of the exact power (C90) or rounded correctly (the witnesses of C91);
  * `Verif/Ieee.lean`, `Verif/IeeeSpec.lean`: IEEE 754 binary64 arithmetic as numpy does it, powers with a literal exponent rounded correctly (C109, C110);
  * `Verif/ForecastSpec.lean`: mean and variance of a law on the real numbers (C111, C112);
  * `Verif/RvsArray.lean`, `Verif/RvsArraySpec.lean`: `rvs` with array parameters fills the result in numpy's order, one draw per entry (C114);
  * `Verif/Warnings.lean`: `warnings.warn` and `warn_explicit` of Python 3.12 for a `DeprecationWarning`: filters, registries, what is printed or raised (C113);
  * `Verif/Checked.lean`: where Python floats raise (`ZeroDivisionError`, complex powers).

### What is modelled
All of `conjugate/models.py` (function by function: scalar models in `Models.lean`, matrix models in `MatModels.lean`, the decorators in `Calls.lean`, the signatures of all functions in `CallTable.lean`); all dataclasses of `conjugate/distributions.py` with constructors, alternative constructors, `.dist`, operators, indexing, plot bounds and sampling methods; `conjugate/slice.py`; `conjugate/plot.py` up to the numbers and labels handed to matplotlib; `_beta_geometric.py`, `_compound_gamma.py`; the loop of `docs/examples/thompson.md`; the running posteriors of `docs/index.md` (C115); the computations of `scripts/post-engagement.py` after the call; the query of `docs/examples/sql.md` (PyPika's `get_sql` is modelled from its source in `Sql.lean`).

### What is not modelled
Floating point other than in C89 - C91, C109 and C110; numpy's floating point warnings; the `OverflowError` of Python's own floats; matplotlib rendering; SciPy's sampling algorithms (parameters of the model) and kernel density estimates; warnings other than the `DeprecationWarning`s of C113; performance; packaging metadata; the other documentation pages.

### Concrete cases

Theorems with hypotheses come with a case that meets them: an `example` in the same file, which in a family of similar theorems may be shared.  `Props/CasesLaws`, `CasesArrays`, `CasesCalls` and `CasesFloat` apply a further 283 theorems to inputs written out in full; `meets_hypothesis` (`Lemmas/ConcreteCases`) proves the hypotheses there.  Theorems about a random setting (a parameter drawn from the prior, then data) share one example per model: it states that such a setting exists (`exists_draw`, `exists_predict`, `exists_again`, `exists_watch`, `exists_iid`, `exists_frozen_library`).

## 3. Plan per property

| id | modelled as | proof |
|---|---|---|
| C01-C05, C07-C09, C11 | model fn at ℝ, `.dist` density, product likelihood over a list | evaluate the normalising integral with Mathlib's Beta / Gamma integrals, then rpow algebra |
| C06 | as above | false of the code: counterexample; `_partial`: what the returned parameters do represent |
| C10 | Pareto density, max of a list | integral of a power on a half line |
| C12 | Gaussian densities | completing the square + Gaussian integral |
| C13 | both prior classes | inverse-gamma integral (substitution t -> 1/t) |
| C14, C15 | joint density on ℝ x (0,oo) | Fubini: Gaussian integral inside, inverse-gamma outside |
| C16 | Dirichlet kernel on the open simplex | product algebra over `Fin k`; normaliser by induction if reached |
| C17 | pmf over `Fin (N+1)` | false: counterexample; `_partial`: which conjugate formula it does compute |
| C18 | exp of `approx_log_likelihood` | log algebra over lists |
| C19 | kernel in mu | false: counterexample; `_partial` for the case where it holds |
| C20, C21 | matrices over `Fin p`, densities with `det` and quadratic forms | completing the square in matrices; Gaussian integral by change of variables (else kernel version, `_partial`) |
| C22, C23 | IW / NIW densities over the covariance's upper triangle (`SymSpec.lean`) | trace algebra for the kernel; normalisation by induction on the dimension: the density of a bordered matrix factors into a smaller inverse Wishart, an inverse gamma and a normal (`Lemmas/WishartBlocks`, `WishartNorm`) |
| C24, C25, C27-C32 | mixture integral | Mathlib Beta/Gamma/Gaussian integrals |
| C26 | mixture integral against the hand-written pmf | false (off by one): counterexample; `_partial`: exact identity that does hold |
| C33-C36 | matrix versions | Woodbury, matrix determinant lemma; C35 integrates over mean and covariance with the normalised NIW density; simplex integral by induction on k |
| C37-C39 | fold of the model function over a list of batches | induction on the list; pooled statistics; permutations |
| C40 | n = 0 instance | rewriting; normal: exception at n=0 proved in `Checked` (false) |
| C41, C42 | inequalities at ℝ | Cauchy-Schwarz for lists, posdef lemmas, convex combinations |
| C43-C45 | equations between model functions | algebra with guards stated |
| C46, C47 | parametricity theorem: relations closed under the operators are preserved by every model function | instances: projection at an index, evaluation of expressions |
| C48 | `Checked` instance | case analysis: iff characterisation of failure |
| C49-C51 | convolution sums / integrals | Mathlib convolutions, Vandermonde, Beta integral, induction on k |
| C52-C55 | ScipyDist densities against textbook densities | rpow algebra; false ones by counterexample |
| C56 | marginals | Gaussian marginal; counterexample for the missing square root |
| C57-C59 | `SliceMixin` on parameter records | case analysis on Python sequences and keys |
| C60-C65 | plot state machine and grids | induction on call histories, arithmetic |
| C66, C67 | annotation / isinstance model, all decorated functions | case analysis over the function table |
| C68-C72 | sampling over explicit random streams | equational; aliasing counterexamples |
| C73 | Python values (int, list, tuple, array) | case analysis + induction |
| C74, C75 | `inv` as a parameter; non-interference | equational; negations where the code ignores the argument |
| C76 | log likelihood | counterexample + exact relation |
| C77 | version tuple comparison | case analysis |
| C78 | the loop of the documentation on arrays, with `argmin` | induction over the steps |
| C79 | `__post_init__` bounds against the support of `.dist` | max of a vector; counterexamples |
| C80-C82 | keyword binding of `FnSig` for all 48 decorated functions | permutation of association lists, case analysis |
| C83 | `VectorizedDist` over the random stream | equational; negation for seeds and plots |
| C84 | composition of each model function with its predictive function | `IsPosteriorPredictive` (ratio of evidences, no posterior in it) from C01-C23 and C24-C36 |
| C85 | fold of predict-then-update over a list, with errors where a call can raise | induction on the stream; the posterior is the prior of the next step |
| C86 | the sampling methods over streams of deviates; SciPy's samplers as parameters, assumed exact (`CorrectScalar`, `CorrectNormal`, `CorrectInvWishart`, `CorrectWishart`; `exists_library` constructs such samplers) | product of laws of the draws, two-stage integrals; normalisation of the Wishart and inverse Wishart densities |
| C87 | `rvs`, `pdf`, `pmf` of `_compound_gamma.py`, `_beta_geometric.py` | as C86, with the mixture integrals of C26 and C29 |
| C88 | the posterior functions of `models.py`, run on the sums of the first n observations | `ConsistencySpec.lean` says what independent data and concentration mean; strong law of large numbers for the sufficient statistics, then Chebyshev with the posterior's exact mean and variance (from the density identity `x f = c f'`); matrix posteriors through coordinates, Laplace transforms of quadratic forms of the inverse Wishart, and the angle by direct tail bounds; log-concave kernels by Gibbs' inequality and a tail bound for concave exponents (`concentrates_family`) |
| C89 | model fns at `Fl` with `KeepsBits p` rounding | invariant along the fold: totals are p-bit numbers, so every sum is exact; `binary_keeps`: binary floats qualify |
| C90 | model fns at `Fl` with `Accurate u` rounding | `Near u k` calculus (quotient within `((1+u)/(1-u))^k`) carried along the fold; `binary_accurate`; for subtractions `Mag u k A` (off by at most the fraction `(1-u)^-k - 1` of the size `A`), with Cauchy-Schwarz to bound the sizes |
| C91 | model fns at `Fl` | rounding keeps signs; counterexamples by computing the roundings with `roundBits_eq` |
| C92 | the posterior functions run on the first n observations, as in `scripts/parameter-recovery.py` | exact posterior mean and variance of each family from the density identity; quantiles are squeezed by concentration (`ppf_tendsto`); vectors coordinate by coordinate, unknown mean and variance through their marginals (`MixLimit`); entries of a covariance matrix from a bound on the expected quadratic form (`iw_quad_le`), which comes from the second moment of the predictive t |
| C93 | posterior and predictive functions composed, on the first n observations | the exact predictive identities (C24 - C36) turn the predictive into an average of the likelihood over the posterior; averages under concentrating laws converge when second moments stay bounded (`expect_tendsto`) |
| C94 | `.dist.rvs` (Rvs.lean), the two calls of docs/examples/unsupported-distributions.md; the same with `sample_mean` / `sample_beta` first | the law of the second stage given the first is a kernel; its mixture over the posterior law has the predictive density (Tonelli); independence from the sample specification of `SampleSpec.lean`. `exists_frozen` builds samplers meeting the specification by inverse CDFs |
| C95 | `approx_log_likelihood` of the proportional families and their model functions | the kernels are log-concave (AM-GM on densities shows the log normalising constants are convex); an integrable log-concave function decays exponentially; the likelihood of one observation grows at most linearly in the parameters; C18 links the kernels |
| C96 | posterior updates (C88), samplers (C86, C94) | all `size` samples close has probability (posterior probability of the box)^size, which tends to one; the reported variance is a function of the parameters, so its limit follows from that of the parameters |
| C97 | the SciPy densities and masses of every class | read the parameters off the logarithm of the density: values at three scales, second differences, growth rates as x tends to 0 or infinity; joint densities by integrating the mean out and then using the two marginal cases |
| C98 | the posterior functions and the SciPy densities of the data | posterior uniqueness and different-parameters-different-distributions (C97) make equality of posterior objects equivalent to equality of posterior densities, hence to proportional likelihoods; for the families known up to a constant the parameters are read off `approx_log_likelihood` at small integers, and for `VonMisesKnownDirectionProportional` from log I0 not being a line |
| C99 | the posterior functions and the SciPy densities of the posterior; tail probabilities as integrals (OrderSpec) | a strictly increasing ratio of two densities on an open set makes every tail strictly larger (higher_of_ratio); the ratio is computed per family; Pareto tails in closed form |
| C100 | the composition of update and predictive, with SciPy's pmfs and pdfs | the discrete ratio lemma (higherCounts_of_ratio) from the recursions of the beta-binomial, negative binomial and beta-negative-binomial probabilities, whose sums are proved to be one; compound gamma, Lomax and normal densities by ratio |
| C101 | the update and predictive functions and their SciPy densities; change of variables for lines, vectors, covariance matrices (UnitsSpec) | the densities are location-scale families, so their rescaled parameters are unique by C97; the updates commute with the parameter map (algebra, matrix conjugation) |
| C102 | the Dirichlet, Beta and beta-binomial updates and their densities; group totals and events about groups (RelabelSpec) | the Dirichlet distribution is the law of the shares of independent gamma variables (change of variables); two of them merge by the beta integral; every group map is a sequence of renamings and mergers of two categories (induction); counts by the beta-binomial sum |
| C103 | the updates and the densities of their priors, posteriors and observation models; repeated draws of unknown and data (CalibrationSpec) | the joint law of unknown and data has density prior times likelihood, which is evidence times posterior by the Bayes theorems (Tonelli on the product space); a posterior without atoms puts exactly b - a between its quantiles; for the exponential model equality of the two joint densities almost everywhere is refuted by continuity |
| C104 | the maximum of independent predictive draws of docs/examples/bootstrap.md; the maximum of counts with a shared rate | the predictive is the average of the Poisson laws (C27); strict Jensen for the n_new-th power, the chance of at most m not being constant in the rate. The samples of `conjugate_stat` itself (Maxima.lean): columns of a table of independent draws are independent; the two-stage sampler with a shared rate |
| C105 | histories over k groups (JointSpec), rows of samples and the computations of scripts/post-engagement.py (Engagement) | the likelihood of a history factors over groups, the evidence by Fubini; rows of samples have the product law; Chebyshev for shares; ties of argmax are null; conversely a product posterior makes each entry a posterior, so C06 gives the iff for exponential data |
| C106 | Python numbers and PyPika terms as a number type, PyPika's `get_sql` with its rules for parentheses (Sql); SQL grammar as a one-pass reader with comments and two kinds of division (SqlSpec) | induction on terms: in the contexts in which PyPika leaves parentheses out, reading the text gives the value of the term (`readsBack`); texts without comments are closed under the operators; the documented text is computed |
| C107 | `thompson_step` and the loop on the stream of the generator (Bandit); Thompson sampling as a law of plays given any past (BanditSpec) | the samples and the wait are one two-stage draw; by induction on steps what is left of the generator is independent of the plays (`Ok.fresh`); ties have no mass |
| C108 | the same loop; `Recovers` (ConsistencySpec) | Kronecker's lemma and L² martingale convergence give averages over the random times a group is played; Lévy's Borel–Cantelli lemma: a group no longer played keeps a fixed chance of being played, so none stops; concentration then decides the shares |
| C109 | model fns at `F64` (Ieee) | `MidNN`/`MidPos` carry a two-sided size bound through each formula, inside which rounding to a double is rounding to 53 bits (`round_eq`); batches: C90 bounds every partial total |
| C110 | model fns at `F64` | case analysis of IEEE 754 operations: a finite sum or product has finite arguments; `round_value` for sums near the largest double |
| C111 | `*_predictive` of the binomial, Bernoulli, Poisson, negative binomial, gamma, normal, Dirichlet and multivariate normal models | total mean and variance of a mixture, from the squares about every point; moments by moving mass between members of a family |
| C112 | `linear_regression`, `linear_regression_predictive` | marginal t law at each row (C56); completing the square along the line of inputs; `x' (A + B'B)⁻¹ x ≤ x' A⁻¹ x` |
| C113 | `normal_normal_inverse_gamma`, `normal_normal_inverse_gamma_predictive` with `warnings.warn`, `warn_explicit` and its registries (Python 3.12) as a state | invariant over the history of calls: what each registry holds and what was printed after `n` calls |
| C114 | SciPy's `_argcheck_rvs` with `docs/examples/sampling-distributions.md`; parameters as arrays of any shape | the least common shape with leading ones ignored; the values fill the array in order, and the product law is carried over from positions to indices |
| C115 | an unbounded sequence of observations; `docs/index.md:91-130` with array arguments | the moments of stopping partition the runs that stop, and on each the calibration of C103 is applied to the region announced there; existence of the sequence by an infinite product kernel; the array call by broadcasting and a fold over the trials |
| C116 | prior, data and a new value drawn together; each posterior function followed by its predictive function | averages over unknown and data equal averages of posterior averages over the data; the predictive law is the model averaged over the posterior (C24–C36), so every region rule is kept; `ppf` is measurable in the data; disagreements: two predictive laws that both keep their predictions agree for almost all data, and a law with smaller quantiles and the same mean is the same law (layer cake) |
| C117 | a whole call of `plot_pdf`, `plot_pmf`, `plot_cdf`: grid, reshaping of x, broadcasting against the parameters, labels, matplotlib's rule for columns | the shape of the table is `(points, k)` for every mixture of shapes that broadcast to `k`; entry by entry it is the function of distribution `j`; the cdf (integral or sum of the density) is the probability of `Iic x`; sums over the grid are masses of intervals |
| C118 | memory with arrays that can be changed in place and shared; the model functions, generic in the number type, run on computations that read and allocate arrays (Memory, MemoryDirichlet) | relation between a computation and an array expression: started in any extension of the memory it gives the same contents or exception, changes no old array, and its result is new; closed under the operators and constructors; induction over batches |
| C119 | Python's dispatch of `*` and `+` to the methods of the operands, numpy arrays on the left, `sum` (Operators) | cases on the classes; induction on expressions with the convolution theorems of C49-C51; induction on lists; a Poisson law has an atom at 0, the sum with an Exponential has none |
| C120 | the `__eq__` that `@dataclass` writes, before and since Python 3.13, over fields with addresses (Equality) | induction on the fields; densities through C97 |
| C121 | the PyMC example of docs/examples/generalized-inputs.md: the law of one joint draw of alpha, beta and posterior_dist (Hyper) against the joint posterior (HyperSpec) | densities of product laws, marginal in the prior's parameters; continuity and a limit for the false part |
| C122 | buffers and places (Views): numpy basic indexing gives views, list indexing copies; `asdict` copies; the three `__getitem__` methods as programs on the memory | specification in ViewsSpec (Detached: no later write on either side shows on the other); growth of the memory as invariant of the loops, induction over the fields and over the writes |
| C123 | the documented pipeline on real matrices: `create_X`, `linear_regression`, `linear_regression_predictive`; laws of single predictions as marginals of the multivariate t (C56) | the scale on the diagonal is one plus the leverage; explicit inverse of a 2 x 2 matrix; mass of a Student-t near its centre is strictly monotone in the scale |
| C124 | the setting of C103: unknown drawn from the prior, data from the model, rule = any measurable function of the data | losses by monotone class from regions (C103); squared error by the bias-variance identity; stock by convexity at the quantile and measurability of `ppf` in the data |
| C125 | the setting of C116: unknown, data and a new observation drawn in turn; rule = any measurable function of the data | as C124 with the predictive in place of the posterior; the mixture over the posterior is measurable in the data; stock by the two one-sided slopes at the quantile, so that counts are covered; strictness by a gap at a point between the two quantiles |
| C126 | Python values as in C73; `.dist` reads `alpha.ndim`, which only arrays have (DirichletUse) | cases on the kinds; induction over batches with the invariant that the parameter stays an array |
| C127 | Python's list methods on instances with addresses, with the `==` of C120 (ListSearch) | induction on the list; each question decided by C120 |

## 4. Disagreements between the code and the property list
Each is proved in Lean: the negation (or an exact iff) together with the part that does hold.

| property | what the code does | theorems |
|---|---|---|
| C06, C28 | `exponential_gamma` adds the total to the shape and n to the rate (the Poisson update), and the predictive swaps the parameters | `C06_exponential_gamma_rate_iff`, `C06_exponential_gamma_mean_false`, `C28_exponential_gamma_predictive_iff` |
| C17 | `hypergeometric_beta_binomial` ignores the number of draws and updates a binomial | `C17_hypergeometric_beta_binomial_false`, `C37_hypergeometric_fails` |
| C19, C76, C37, C39, C41 | `von_mises_known_concentration`: concentration is kappa times the sine total; its log likelihood adds instead of multiplying; batches and orders disagree; concentration can be negative | `C19_von_mises_known_concentration_iff`, `C76_von_mises_log_likelihood_iff`, `C37_`, `C39_`, `C41_von_mises_known_concentration_fails` |
| C26, C55 | `BetaGeometric.pmf` is shifted by one, does not sum to one | `C26_geometric_beta_predictive_false`, `C55_beta_geometric_not_normalised` |
| C27 | `poisson_gamma_predictive` is right exactly for n = 1 | `C27_poisson_gamma_predictive_iff` |
| C40, C48 | `normal`, `log_normal` with n = 0 raise `ZeroDivisionError`; `multivariate_normal` on no rows is nan | `C40_normal_no_data_raises`, `C40_multivariate_normal_no_rows_nan` |
| C53, C79 | `Uniform.dist` is uniform on [low, low + high] | `C53_uniform_dist_iff`, `C79_uniform_bounds_iff` |
| C54 | `Exponential.dist` has scale lam, `LogNormal.dist` has loc mu | `C54_exponential_dist_iff`, `C54_log_normal_dist_iff` |
| C56 | `MultivariateStudentT[i]` uses the variance as scale | `C56_multivariate_student_t_int_iff`, `_false` |
| C58, C59 | indexing swallows every exception (a wrong index returns the whole distribution) and drops the plot bounds | `C58_bad_index_returns_whole`, `C58_bad_index_mixes`, `C59_plot_bounds_dropped` |
| C62 | the discrete grid leaves the bounds when they do not differ by an integer | `C62_discrete_grid_overshoots_iff` |
| C64 | `conditional=True` normalises over all distributions together, also for a cdf | `C64_conditional_pmf_iff`, `C64_conditional_cdf_wrong` |
| C66 | the wrong prior type raises `AttributeError` for the five functions annotated with a union | `C66_union_attribute_error` |
| C68, C83 | vectorised Dirichlet distributions take no `random_state` and cannot be plotted | `C83_no_seed_no_plot` |
| C69 | an integer seed restarts the stream for every sample: all samples of a multivariate mean lie on a line | `C69_seed_restarts`, `C69_seeded_samples_on_a_line` |
| C70 | one feature: an axis is missing or `LinAlgError`; no samples: `ValueError` | `C70_one_feature`, `C70_no_samples` |
| C71 | `sample_variance` of NormalGamma, NormalWishart, NormalInverseWishart returns the variance of the mean, not of an observation | `C71_normal_gamma_iff`, `C71_wishart_scaled`, `C71_normal_inverse_wishart_iff` |
| C72 | `size=0` is taken for `None` | `C72_size_zero` |
| C72 | `CompoundGamma(...).dist.rvs(size=1)` gives a bare number, not an array of one, because the second `gamma.rvs` gets no `size` and SciPy drops the axes of length one in front | `C72_compound_gamma_size_one`, `C72_compound_gamma_shape` |
| C73 | two lists of counts are concatenated; unequal lengths are truncated | `C73_lists_concatenate`, `C73_unequal_lengths_truncate` |
| C74 | the helper of the known-covariance / known-precision models ignores `inv` | `C74_known_covariance_ignores_inv`, `C74_known_precision_ignores_inv` |
| C75 | `n` (hypergeometric), `beta` (gamma_known_rate), `n` (von Mises) are ignored | `C75_*_ignored` |
| C77 | a SciPy release written `1.12` is refused | `C77_two_components_false` |
| C79 | the default bounds of `BetaNegativeBinomial` cut off probability | `C79_beta_negative_binomial_false` |
| C84, C85 | exponential data: the two exchanges cancel for the data but not for the prior, so the pipeline is right exactly when the prior's parameters are equal | `C84_exponential_gamma_iff`, `C85_exponential_gamma_iff` |
| C84, C85 | geometric predictive off by one, Poisson predictive for exposure other than 1 | `C84_geometric_beta_false`, `C85_geometric_beta_false`, `C84_poisson_gamma_iff` |
| C87 | `beta_geometric.rvs` and `beta_geometric.pmf` describe different laws (shifted by one) | `C87_beta_geometric_false`, `C87_beta_geometric_shifted_partial` |
| C88 | after many observations with rate r, `exponential_gamma` concentrates at 1/r, not r | `C88_exponential_gamma_rate_partial` |
| C88 | von Mises data with a direction between -pi and 0: the posterior concentrates at the opposite direction | `C88_von_mises_opposite` |
| C91 | `normal` computes `beta` as `beta + (mu0^2 nu + x2_total - mu_post^2 nu_post) / 2`. With Python floats, prior NormalGamma(mu=67108859, lam=1, alpha=1, beta=1/4) and data 67108859, 67108860 the result is `beta = -3/4` (ideal 7/12), an invalid distribution. `normal_known_mean` (data 60000001 twice, mu = 60000000.75, beta 1/4: -1/4 instead of 5/16), `geometric_beta` with `one_start` and `pareto_gamma` (beta 2^-60: result 0) have the same defect. | `C91_normal_false` |
| C92 | for data with rate r the posterior mean of `exponential_gamma` tends to 1/r | `C92_exponential_gamma_rate_partial` |
| C93 | the geometric predictive tends to the true law shifted by one | `C93_geometric_beta_false`, `C93_geometric_beta_shifted_partial` |
| C94 | Poisson exposure, exponential arguments, geometric counts, integer seeds | `C94_poisson_gamma_iff`, `C94_geometric_beta_false`, `C94_exponential_gamma_swapped_partial`, `C94_seed_restarts` |
| C94 | `NormalGamma` and `NormalInverseWishart` report the variance of the mean, so observations drawn with the reported variance are too narrow or too wide unless `lam = 1`, `kappa = 1` | `C94_normal_ng_law`, `C94_normal_ng_iff`, `C94_multivariate_normal_law`, `C94_multivariate_normal_iff` |
| C95 | `GammaProportional` with s > r is accepted but no such kernel, prior or posterior, can be normalised | `C95_gamma_never_normalisable` |
| C96 | variances reported by `NormalGamma.sample_beta` and `NormalInverseWishart.sample_mean` after n observations gather at zero, not at the true variance | `C96_normal_ng_false`, `C96_multivariate_normal_false` |
| C97 | `BetaBinomial`/`DirichletMultinomial` with one trial, `BetaNegativeBinomial` with n and beta exchanged, `Hypergeometric` with success states and draws exchanged, `VonMises` a whole turn apart: different parameters, same distribution | `C97_beta_binomial_one_trial_false`, `C97_dirichlet_multinomial_one_trial_false`, `C97_beta_negative_binomial`, `C97_hypergeometric_false`, `C97_von_mises` |
| C98 | `von_mises_known_concentration`: one observation at angle 0 and two such observations give the same posterior from a prior with b = 0 | `C98_von_mises_known_concentration_false`, `C98_von_mises_known_concentration_partial` |
| C98 | `hypergeometric_beta_binomial`: two successes in 3 draws and two in 4 draws give the same posterior | `C98_hypergeometric_beta_binomial_false`, `C98_hypergeometric_beta_binomial_partial` |
| C99 | `exponential_gamma`: longer waiting times for the same number of events move the posterior of the rate up | `C99_exponential_gamma_false`, `C99_exponential_gamma_partial` |
| C99 | `hypergeometric_beta_binomial`: the number of draws does not move the posterior | `C99_hypergeometric_draws_false`, `C99_hypergeometric_beta_binomial_successes` |
| C101 | `exponential_gamma`: the posterior depends on the unit in which the waiting times are written | `C101_exponential_gamma_false`, `C101_exponential_gamma_partial` |
| C101 | `von_mises_known_concentration`: the posterior concentration depends on where the angles are measured from | `C101_von_mises_known_concentration_false`, `C101_von_mises_known_concentration_partial` |
| C102 | `hypergeometric_beta_binomial`: exchanging the two kinds of item does not mirror the posterior when the sample is smaller than the population | `C102_hypergeometric_false`, `C102_hypergeometric_partial` |
| C103 | `exponential_gamma`: the intervals of its posterior do not have the announced coverage, for the rate or for the mean | `C103_exponential_gamma_rate_false`, `C103_exponential_gamma_mean_false`, `C103_exponential_gamma_swapped_partial` |
| C104 | docs/examples/bootstrap.md: the maximum of n_new >= 2 independent predictive draws is stochastically larger than the maximum of n_new future counts | `C104_bootstrap_maximum_false`, `C104_max_too_large`, `C104_bootstrap_iff`; proved: `C104_bootstrap_maximum_partial`, `C104_one_observation_partial`, and the two-stage sampler `C104_two_stage_samples` |
| C105 | the groups of docs/examples/thompson.md have no joint posterior from `exponential_gamma`; the call in scripts/post-engagement.py:56 raises ValueError | `C105_exponential_gamma_rate_iff`, `C105_exponential_gamma_mean_false`, `C105_script_call` |
| C106 | `normal_known_mean` with columns for data and a negative known mean gives SQL with a comment in it; the query of docs/examples/sql.md has wrong degrees of freedom for groups of odd size in databases with integer division | `C106_normal_known_mean_negative`, `C106_integer_division` |
| C110 | `normal_known_variance` squares the prior's `sigma`. For `sigma` of 2^512 (about 1.3e154) or more the square is infinite and the prior mean is dropped: prior N(2^1023, 2^512) with one observation 0 of variance 1 gives mean 0, the exact one is almost 1/2. `normal` with numpy doubles and no data gives nan instead of the prior or an error. | `C110_normal_known_variance_false`, `C110_normal_no_data_nan` |
| C111 | `poisson_gamma_predictive(distribution, n)` has variance `n m + n v` where `m`, `v` are the mean and variance of the rate; the count in `n` intervals has `n m + n² v`. Too narrow for `n > 1`, too wide for `n < 1` such as the 35 minutes of docs/examples/limit.md; the mean is right | `C111_poisson_gamma_variance_iff`, `C111_poisson_gamma_mean_partial` |
| C113 | a script that calls a deprecated function is not told: `stacklevel=1` attributes the warning to `conjugate.models` and Python's own filters show it for `__main__` only. `stacklevel=3`, past the decorator, would show it | `C113_silent_by_default`, `C113_stacklevel` |
| C114 | docs/examples/sampling-distributions.md: for a vector `rvs(n)` is said to be a broadcast issue. For a vector of length `n` it is not, and gives one draw for each entry instead of `n` samples of each | `C114_number_silent`, `C114_number_partial` |
| C114 | `rvs()` of a row of parameters with shape `(1, k)` has shape `(k,)` | `C114_row_without_size`, `C114_no_size_partial` |
| C115 | `exponential_gamma` adds the total of the waits to the shape and their number to the rate, so its announcements on stopping are wrong | `C115_exponential_gamma_rate_false` |
| C116 | `geometric_beta_predictive` announces for `k` the probability of `k + 1`, which is smaller | `C116_geometric_beta_too_low`, `C116_geometric_beta_shifted_partial` |
| C116 | `poisson_gamma_predictive(n=w)` multiplies the shape by `w` instead of changing the rate; some limit computed as in docs/examples/limit.md is kept with a probability below its level | `C116_poisson_gamma_iff`, `C116_poisson_gamma_limit_broken` |
| C116 | `exponential_gamma` adds the total of the waits to the shape and their number to the rate; the announced probability of a wait longer than `q` is too low for `alpha < beta`, too high for `alpha > beta` | `C116_exponential_gamma_iff`, `C116_exponential_gamma_waiting` |
| C117 | `BetaGeometric` and `CompoundGamma` have no `cdf`: `plot_cdf` raises `AttributeError` although docs/examples/plotting.md says that all distributions have it | `C117_no_cdf_beta_geometric`, `C117_no_cdf_compound_gamma` |
| C117 | a parameter with exactly 100 rows is drawn as one line whose point `i` belongs to distribution `i` | `C117_table_mixed` |
| C118 | `hypergeometric_beta_binomial` returns the prior's own `n`; predictive functions, `Gamma * k` and `NegativeBinomial * k` return arrays of their arguments: changing one in place changes the other | `C118_hypergeometric_not_independent`, `C118_predictive_not_independent`, `C118_*_shares` |
| C119 | `sum([Poisson(1), Poisson(2)])` raises `AttributeError` because `__radd__` asks `0` for `lam` | `C119_sum_raises` |
| C119 | `Poisson + Exponential` is accepted and gives a Poisson distribution; products of distributions are accepted | `C119_mixed_sum`, `C119_mixed_sum_wrong`, `C119_product_accepted` |
| C120 | `==` of two vectorised distributions with the same entries raises `ValueError`; with SQL terms it is always true | `C120_same_arrays`, `C120_same_arrays_since313`, `C120_sql_terms` |
| C121 | the documented PyMC draws do not have the joint posterior law: `alpha` and `beta` are drawn as before the data | `C121_uncertain_false`, `C121_documented_false` |
| C122 | `mvn[0:2]` shares memory with `mvn`: changing one changes the other, unlike every other class | `C122_mvn_slice_false` |
| C122 | `mvn[np.int64(1)]` (what `np.argmax` returns) raises IndexError for every index | `C122_mvn_numpy_int` |
| C123 | the documented statement that the band widens away from the data is false of data not centred at zero: the narrowest point is pulled to zero by the prior | `C123_one_sided_false` |
| C124 | decisions from `exponential_gamma` as documented are not the best decisions: the announced losses are not those suffered | `C124_exponential_gamma_rate_false`, `C124_exponential_gamma_mean_false` |
| C125 | preparing for a quantile of the predictive of `exponential_gamma` as documented costs strictly more than after exchanging the parameters of the prior; a window other than one interval (`poisson_gamma_predictive`) and `geometric_beta_predictive` give wrong expected losses | `C125_exponential_gamma_costs_more`, `C125_exponential_gamma_iff`, `C125_poisson_gamma_iff`, `C125_poisson_gamma_guess_partial`, `C125_geometric_beta_wrong` |
| C126 | without any array the update runs but the posterior has no `.dist` (`AttributeError`); two arrays that do not broadcast give a list, which has none either | `C126_no_arrays`, `C126_usable_iff`, `C126_unusable_attribute_error` |
| C127 | a distribution with equal arrays of its own that comes first makes `in`, `index`, `count` and `remove` raise ValueError, even if the object itself follows | `C127_arrays_raise`, `C127_first_partial` |
| C92 | `hypergeometric()` of `scripts/parameter-recovery.py`: `prior.beta + N - data.sum()` tends to minus infinity, so the posterior stops being a distribution | `C92_hypergeometric_breaks`, `C92_hypergeometric_stuck` |

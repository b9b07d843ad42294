# Formal model of kthohr/stats: design

Sources: `/repo/include/stats_incl` (read only). Prover: Lean 4.33.0 + Mathlib, project in `lean/`.

## 1. Trusted base

* Lean's kernel; the axioms `propext`, `Classical.choice`, `Quot.sound` (nothing else; every
  theorem is audited with `#print axioms`/`vcheck`). No axiom, `sorry`, `native_decide`, `bv_decide`.
  Facts about whole finite tables are evaluated with `decide +kernel`, which adds no axiom.
* That the Lean definitions in `Verif/Num.lean` and `Verif/Model/*` say what the C++ text says. Each
  definition cites the file and the lines it copies. The code was read, not run.
* The idealisations listed next.

### What is modelled and how

* **Numbers** (`Verif/Num.lean`). `Fl` is `nan | ninf | fin r | pinf` with `r : ℝ`. The operators follow
  the IEEE 754 special-value rules; a finite result is passed through an abstract rounding function
  `rnd : ℝ → EReal` (monotone, odd, fixing the small half-integers; overflow to an infinity allowed).
  The class `Lib` holds `rnd`, `eps` (`STLIM<T>::epsilon()`), and the math library.
  Simplification: the sign of zero is not modelled (`x/0` has the sign of `x`; `0/0` is NaN), and
  `STLIM<T>::min()` is the positive constant `minpos`.
* **Math library** (gcem, not part of `/repo`). `exp`, `log`, `sqrt`, `erf`, `erf_inv`, `lgamma`, `tan`,
  `atan`, `incomplete_gamma`, `incomplete_beta`, their inverses, ... are fields of `Lib`
  with only a weak contract (ranges, values at 0/infinity). Theorems that hold for *every* `Lib` hold
  for every rounding rule and every such library. `MonoLib` adds that the library functions are monotone.
* **Exact arithmetic** (`Verif/Ideal.lean`). The class `Ideal` says that rounding is the
  identity and that each library function is the mathematical function; the
  analytic theorems (integrals, inverses, formulas, limits, laws) are stated under `Ideal`. All classes have
  concrete instances (`Verif/Instances.lean`, `Lemmas/ExactInst.lean`, `Lemmas/FairInst.lean`), so no theorem is vacuous.
* **binary64** (`Verif/Double.lean`, `Lemmas/DoubleCalc.lean`). `doubleLib` rounds to 53 bits with ties to even, with
  overflow and gradual underflow. It is used for the witnesses `*_double_violated`, `C06_df_violated`, `C26_violated`,
  `C34_rounding_violated` and the exactness limits of C38. The library functions are exact functions followed by rounding.
* **Integers**: `llint_t` as `ℤ`, `ullint_t`/`size_t` index arithmetic as `ℕ` modulo 2^64 where it matters
  (`wadd`, `wmul`, `wsub`). Conversions from floating point that C++ leaves undefined are the outcome `none`.
* **Loops and recursion**. Bounded loops are structural recursions. Recursions without a bound (`qbinom`, `qpois`, the
  rejection loop of `rgamma`, the product loop of `rpois`) run with fuel; `runFuel` forgets the amount, so `none` means that
  the C++ code never returns.
* **Random engine** (`Verif/Model/Rand.lean`). An abstract deterministic state machine: state, uniform draw on `[a, b)`,
  standard normal draw, construction from a seed. Support and termination theorems hold for every engine.
  Laws are relative to `Spec.FairEngine` (`Spec/Law.lean`): a probability measure on the states under which each
  primitive draw has the law the standard prescribes and the next state is again distributed like the
  first and independent of the draw. `Lemmas/FairInst.lean` builds one (an infinite tape). `std::nextafter(0,1)`, the
  lower end of `runif`, is idealised to 0 in the laws of C29–C33 and C46–C48; C50 bounds what the true value changes.
* **OpenMP** (`Verif/Model/Vec.lean`). `parallel for` is an arbitrary interleaving of the steps of its iterations. Memory is
  sequentially consistent; the race-freedom theorems of C23 and C24 justify this for C++. A scalar generator is a
  resumable program over its engine, so that steps of different threads interleave inside a draw.
* **Templates** (`Verif/Model/Types.lean`). The numerical model works at one floating type. The choice of this type
  (`return_t`, `common_return_t`, the casts, the functions that skip them) is modelled separately, with the integer sizes
  of LP64.
* **Integer overflow** (`Verif/Model/Trace.lean`). The other files use unbounded `ℤ` for `llint_t`; C56 shows where this is right.
* **Overloads** (`Verif/Model/WrapTable.lean`, `Wrap.lean`). The 382 container overloads are one table; the macros they
  expand to work on containers with their memory layout (column or row order, padding).
* **Matrices** (`Verif/Model/MatOps.lean`, `Multi.lean`). Helpers that the library writes out are copied loop by loop over
  raw memory. Calls into Armadillo, Blaze, Eigen and LAPACK are fields of `LinAlg`; `IdealLin` says that inverse,
  determinant, Cholesky factor and the products are exact. LAPACK's `potrf` writes only the lower triangle.

### What is not modelled

gcem's internals and its error; compile-time evaluation; the sign of zero; floating-point status
flags; the internals of `std::mt19937_64` and of the standard distributions; Armadillo, Blaze and Eigen
internals (of Blaze's threads only that they divide the elements, C65); performance, except for the counts of C55 and C57; `printf` in the error paths.

## 2. File layout

* `Verif/Num.lean`, `Ideal.lean`, `Instances.lean`, `Double.lean` numbers, library contract, instances.
* `Verif/Model/*.lean` the code, function by function, with citations: `Sanity` (parameter checks), `Dens`, `Prob`, `Quant`,
  `Rand` (scalar functions), `Abs` (the meaning of `abs` in `qinvgauss`), `BlazeMap` (Blaze with threads), `Seed` (seed overloads), `Types` (type computation and casts), `Vec` (OpenMP macros, seeds),
  `WrapTable` and `Wrap` (container overloads), `MatOps` (matrix helpers), `Multi` (multivariate functions).
* `Verif/Spec/*.lean` small specifications that do not mention the model: textbook densities, distribution functions,
  quantiles, supports, admissible parameters, point masses, limits along one (`Limit`) or all (`Joint`) paths, laws.
* `Verif/Lemmas/*.lean` auxiliary lemmas.
* `Verif/Props/C??*.lean` the property theorems, each with concrete instances of its hypotheses. Small properties share a
  file with a neighbour (C03 in C02, C13 in C12, C15 and C16 in C14, C19 and C20 in C18, C25 in C26, C30 in C29).

Theorem names start with the property id (`C05_dexp`, ...). Suffix `_partial`: only part of the property.
Suffix `_violated`: the code violates the property; the theorem proves the negation with a witness.

## 3. Per property plan

| id | modelled | proof |
|----|----------|-------|
| C01 | all d/p/q scalar functions + sanity checks | case analysis, every `Lib` |
| C02 | same | case analysis, every `Lib` |
| C03 | all q functions, `prob_val_check` | case analysis, every `Lib` |
| C04 | d/p functions | exact arithmetic; violated for dlogis, dcauchy (scale 0), dweibull (x = 0, shape 1): witnesses + partial |
| C05 | d functions | case analysis, every `Lib`; violated for dexp (+inf, log), dunif (infinite bound, log) |
| C06 | d functions | every `Lib` |
| C07 | d and p functions | exact arithmetic; violations dexp, dunif, pf |
| C08 | d functions | exact arithmetic, against `Spec/Densities.lean` |
| C09 | p functions | every `Lib`; `pbinom`, `ppois`, `pinvgauss`, `pt` in exact arithmetic, with values above 1 in binary64 as violations (`pbinom`, `ppois`, `pinvgauss`); `pt` in binary64 for every double (`C09B`) |
| C10 | p functions | exact arithmetic (and every monotone library where possible); `pbinom`, `ppois`, `pinvgauss`, `pt` (2 degrees of freedom) and `pf` are not monotone in binary64 |
| C11 | p functions | every `Lib` |
| C12, C13 | d, p functions | Mathlib measure theory: derivative of the cdf, limits, change of variables; `pinvgamma` above rate `1/eps` violated (`Props/C13.lean`) |
| C14, C15 | p, q functions | exact arithmetic |
| C16 | q functions | exact arithmetic; with rounding (`Props/C16B.lean`, `C16E.lean`) for every arithmetic with monotone library functions (`MonoLib`, `MonoInv`), among them binary64: normal, log-normal, uniform, exponential, Cauchy, Laplace, logistic, gamma, chi-squared, inverse gamma, beta, F, Weibull, and for every arithmetic at all Bernoulli, Rademacher, binomial, and Poisson with rates in [eps, 11) (`Props/C16F.lean`; from 11 on up to one count, or under a condition on the starting point of the search). Violated in binary64 by `qpois` in the lower tail when the search starts at its target (`Props/C16G.lean`; Stirling's formula with both errors and Mills' ratio), by `qt` with 2 degrees of freedom (`Props/C16H.lean`, where 1 and infinity are proved), by `qunif` when `b - a` overflows, and by `qnorm` when √2·sigma overflows |
| C17 | dbern dbinom dpois dradem p* | finite/infinite sums |
| C18 | qbern qradem qbinom | loop invariant |
| C19 | qpois | violated (strictly larger than p instead of at least p; in the lower tail in binary64 below p, `Props/C16G.lean`); partial |
| C20 | qbinom, qpois | variant; non-termination of qpois at infinite rate; in binary64 (`Props/C20D.lean`) the computed distribution function reaches 1 at `2^63-1025` for rates up to `2^63-2^35` (Chernoff), and the starting point stays below (Gaussian tail); for rates from `2^63-2^34` to `2^63` at the greatest double below 1, and from `2^63` on already at the median, the conversion of the starting point is undefined (`Props/C20E.lean`, Mills ratio from below) |
| C21 | qinvgauss | loop bound by induction, fixed point algebra; error after 100 steps and monotonicity of the iterates from the shape of the density (C21B) |
| C22 | overloads | dnorm(x) forwards to pnorm: violated |
| C23, C24 | OpenMP macros | interleaving semantics, invariant by induction |
| C25 | RAND_DIST_FN_VEC | violated: witness engine |
| C26 | generate_seed_value | interval arithmetic |
| C27 | seed overloads | definitional unfolding + determinism |
| C28 | r functions | every engine |
| C29–C33 | r functions | push-forward of uniform/normal measures |
| C34 | rmultinom | loop invariant; number of trials and engine use: violated |
| C35, C36 | matrix functions | Mathlib linear algebra |
| C37 | matrix helpers | list/array induction; Blaze repmat and std::vector zeros: violated. Sums, means and variances under rounding: error bounds `C49_accu`, `C49_mean`, `C49_var`, sign (`Props/C37D.lean`) |
| C38 | type functions | finite case analysis over the inductive type of C++ arithmetic types; `common_type` is compared with the ranges of the integer types |
| C39, C40, C41 | d/p/q | exact arithmetic; the reflections of C40 that survive rounding, for every library with odd functions, from the symmetry of rounding alone (`Spec/OddLib.lean`, `Props/C40R.lean`); binary64 counterexamples for the distribution functions and `qlogis` next to the median (`Props/C40S.lean`) |
| C42 | qt, pt | closed forms; refinement loop: cubic convergence near the quantile (derivative of a round); general branch: violated (NaN for dof < 1/2, upper half) |
| C43 | all d*, p*, q* with an infinite argument | limits of the closed forms in exact arithmetic (Spec/Limit, Lemmas/Limits, Limits2); many branches violated |
| C44 | the 382 vector and matrix overloads as a table (Model/WrapTable), the macros on containers with their memory layout (Model/Wrap) | facts about the whole table by evaluation in the kernel, then for all shapes and schedules through C23 and C24; Blaze overloads of p* and q*, and results of 2^64 elements, violated |
| C45 | norm, cauchy, laplace, logis d/p/q with several infinite arguments | limits along all paths (Spec/Joint), exact arithmetic; pnorm and dcauchy violated at infinite scale |
| C46 | RAND_DIST_FN_VEC with and without OpenMP, seeds of the engines (Model/Vec) | product law by induction over the loop from the law of the scalar generator; violated in the parallel region: the engines are seeded from at most 1001 values each |
| C47 | rwish, rinvwish (Bartlett's construction, Model/Multi) | change of variables: Jacobians of congruence, of Cholesky squaring and of inversion on symmetric matrices (Lemmas/SymJac, SymMap, WishLaw); exact arithmetic; violated with Blaze when no factor is supplied |
| C48 | rmultinom | law of a sequence of dependent binomial draws, by induction over the loop; the first count is conditioned on, because its engine is seeded from `std::random_device` (C34); violation by counting: a seed of b bits gives only probabilities that are multiples of 2^-b |
| C49 | every density, every distribution function, every quantile except `qt` beyond two degrees of freedom (`qinvgauss` when its stopping test ends the loop, `C49J`) | forward error analysis: an interval for the computed value is carried through the formula (Spec/Round, Lemmas/Round; Lemmas/RoundSpecial for the incomplete gamma and beta functions), for any library whose operations are accurate to `u` (`RelLib`; no underflow or overflow). gcem's incomplete gamma and beta functions and their inverses count as library functions: how far they are from the integrals is assumed, what rounding their arguments does is proved. Quantiles that form `2p - 1`, `p - 1/2` or `1 - p` are accurate for a probability within a few units of rounding of the given one (`QuantAcc`, `C49H`); `qbinom`, `qpois` are the quantile up to the error of `pbinom`, `ppois` (`qpois` from rate 11 on, `C49P`: the Poisson-normal inequality leaves one and a half counts for the rounding of the starting point). `df`, `qf` up to `df1 x = df2`, `pf` short of probability one, the others on their whole range; `Wide` (53 bits, unbounded exponent, equal to binary64 in its normal range) is an instance; tails lost in binary64 as violations |
| C50 | the generators of C29–C33, C46–C48 with the interval `[nextafter(0,1), 1)` the code really uses | total variation: closeness of laws is carried through maps, independent products, the rejection loop (conditioning, with an acceptance probability of at least 1/5) and the Wishart factor (Lemmas/Near); at distance 0 the bounds are the exact laws again |
| C51 | d, p, q of the seven scale families, beta, F, binomial, Bernoulli, Rademacher, ppois, pweibull; eleven generators | exact arithmetic: identities of the textbook formulas (Spec/Scale) carried to the code by C08, C13–C17; generators state by state, `rgamma` by induction on the fuel; the inverse Gaussian iteration step by step; binomial/beta duality by differentiating Bernstein polynomials. Fails across the cut-offs at epsilon (`C51_cut_violated`) |
| C52 | all densities, point probabilities and scalar generators; `mean`, `var` of a generated vector | exact arithmetic: `x^r` times a gamma, beta or inverse gamma density is a multiple of another member of the family; F, t by products of independent variates; log-normal by the moment generating function; logistic by its exponential series and the sum of the alternating inverse squares; inverse Gaussian by conditioning on the smaller root; discrete by sums; heavy tails by comparison with a power; samples by C46 and additivity of variances. `var` divides by n, so its expectation is (n-1)/n of the variance except with Armadillo: the last sentence of the claim fails there (`C52_var_violated`), and `rinvgamma` is partial as in C32 |
| C53 | all distribution functions except F and (in lambda) inverse Gaussian, all quantiles computed by formula or by a special inverse, and the generators by inversion, `rnorm`, `rlnorm`, `rbern`, `rradem`, `rbinom`, `rpois`, `rgamma` (scale) | location and scale: monotone arithmetic step by step, every `MonoLib`. Shapes, exact arithmetic: monotone likelihood ratio (`Ord.of_ratio`); t by one crossing of the densities and log-convexity at the centre; counts through the gamma and beta integrals. Quantiles from the order of the distribution functions they invert; draws by coupling at the same uniform variate. Partial: the F distribution is not ordered in its degrees of freedom and the inverse Gaussian not in lambda, because the distribution functions cross (`C53D`: closed forms at 2 and 4 degrees of freedom; densities compared near 0 and far out); the iterated quantiles `qt`, `qinvgauss` are approximate (C42, C49); inverse gamma rates above 1/eps give NaN (C11) |
| C54 | all 15 continuous densities, `dbinom`, `dpois`, `dbern` | symmetric families, exponential and uniform: monotone arithmetic step by step (`C54`, any `MonoLib`; `C54C` checks the conditions on the constants for correctly rounded libraries, binary64 among them). All families in exact arithmetic (`C54B`): sign of the derivative of the log density (`Mode.peak_of_deriv`), values at the ends of the support as one-sided limits of a monotone function; counts by the ratio of neighbouring probabilities. Partial: `dexp` in log form at `+inf` is 0 (`C54_dexp_violated`), `df` at `+inf` is NaN for few degrees of freedom, `dweibull` with shape 1 is NaN at 0 |
| C55 | all generators except `rmultinom` | the engine is wrapped in one that counts (`Spec/Work.lean`); fixed counts by running both, for every `Lib` and every engine (`C55`). The wrapped and the plain `rgamma`, `rchisq`, … give the same value and the same state for every library (`C55_*_counter`). Averages and tails (`C55B`, `Lemmas/Work.lean`): in a round the probability of acceptance is at least 16/25, from a fourth-order lower bound of the acceptance test near zero, minus what the offset of `runif` costs; the chance of more than `n` rounds is then at most `(2/5)^n` because the state after a rejected round has the law of a fresh state. Partial: `rinvgamma` for rates above `1/eps`. An infinite shape or number of degrees of freedom is accepted by the checks and never returns (`C55_*_violated`) |
| C56 | `dbinom`, `pbinom`, `qbinom`, `dpois`, `ppois`, `qpois`, `qinvgauss` a second time, with every operation on `llint_t`/`int` checked (`Model/Trace.lean`); the other scalar functions only compare their integers | branch by branch for every `Lib`; recursions by induction on the distance of the counter to its end, monotone in the fuel. `qpois` in exact arithmetic: defined exactly when its value is at most `2^63-2` (`C56_qpois`), which Chebyshev's inequality gives for rates up to `2^62` and probabilities up to `1 - 2^-61`. Partial: overflow of `x + 1` in `dpois`, `ppois` at the greatest integer, of the counter in `qbinom`, of the counter or the starting value in `qpois` (`C56_*_violated`) |
| C57 | the same functions; calls of `dbinom`, `pbinom`, `pbinom_compute`, `ppois`, `ppois_compute_recur`, the searches and iterations are counted, constant overhead (checks, `*_vals_check`, gcem) is not | the same inductions carry the two counters. Consequence: `pbinom` at 510 or more is beyond the usual depth limit 512 of constant expressions, and the stack it needs grows with `x` |
| C58 | the generators, the vector fill without OpenMP (with OpenMP: short vectors), `pX`, `mean`; the specification (`Spec/Sample.lean`) speaks of probabilities over the state of the engine and of counts of vector elements only | the law of the generator (C32, C50) evaluated on half lines by the closed form of `pX` (C12, C17); Hoeffding's inequality for the product law of C46; all points at once by the quantiles at `k/m` and monotony (`Lemmas/Sample.lean`); Chebyshev with the moments of C52. Partial: `plnorm`, `pgamma`, `pchisq`, `pf`, `pweibull`, `pinvgamma` only outside the zone where the argument counts as 0 |
| C59 | `runif`, `rexp`, `rcauchy`, `rlaplace`, `rlogis`, `rweibull`, `rpois`, `rbern`, `rradem`, `rbinom`, `rnorm`, `rlnorm`; the engine is any whose variates have distribution functions within `η` of the ideal ones (`Spec/Grid.lean`); `Coarse` (`Lemmas/CoarseInst.lean`) is one with 32 bits that is not fair | the event that a draw is at most `x` is squeezed between two events on the uniform variate by the inverse distribution function; under rounding by the error bounds of the quantile functions (C49), the uniform variates near the ends of the interval being counted in the bound. A rounded `1/shape` moves the probability of a Weibull quantile by at most `gam u 2` (mean value theorem in the exponent, `Props/C59C.lean`). Generators with several variates other than `rbinom` are not covered |
| C60 | the generators as in C29–C33 and C50; programs that draw several times and calculate with the results are `Spec.one`, `Spec.two`, `Spec.total` (`Spec/Combine.lean`), the calculation itself in real numbers | the laws of the generators (C32, C50) are pushed through the calculation: the joint law of successive draws is the product because `HasLaw` makes the new engine state independent of the draw; the laws of sums, quotients and extremes of independent numbers are derived from the densities (`Lemmas/Combine*.lean`, the Cauchy sum by Fourier inversion in `Lemmas/CauchySum.lean`). The binomial, Bernoulli and Rademacher relations hold from every engine state, by induction on the loop of `rbinom` |
| C61 | `rmvnorm`, `rwish`, `rinvwish` as in C35, C47, C50; programs that calculate with the returned vector or matrix are `Spec.via`, `Spec.via₂` (`Spec/Project.lean`), the calculation itself in real numbers; the ways to hand over the covariance are `Given`, `GivenInv` (the matrix on Armadillo/Eigen, a nonsingular factor everywhere; the matrix on Blaze is the violation of C37) | the laws of C35 and C50 are pushed through the calculation. Laws of vectors and of symmetric matrices are compared by their exponential moments near 0 (`Lemmas/Mgf`, `Tilt`, `MvnImage`, `WishSum`): those of the normal and the Wishart law come from tilting the density, which keeps the family. The determinant uses the Bartlett factor, the inverse the change of variables of C47 |
| C62 | the vector call of `rnorm` (C46), `mean`, `var`, `var_arma` (C37), the distribution and quantile functions; the program between them is written in model arithmetic (`zstat`, `tstat`, `chistat`, `fstat`, `t2stat` in `Props/C62.lean`), what it reads from the buffers is `Spec.Sample`, `Spec.Sample₂` (`Spec/Test.lean`); Hotelling's statistic is calculated in real numbers from the matrix that `rmvnorm` returns | a reflection that turns the mean into one coordinate splits a sample into mean and deviations (`Lemmas/Student`, for numbers and for vectors); `Lemmas/TestLaw` has the laws of the statistics and the probability integral transform. The interval with `qt` is `_partial`: it needs an exact quantile, which the code has for one and two degrees of freedom only; for large samples the coverage is right up to an error of order n^-4 (`C62_t_interval_large`); missing are samples of moderate size |
| C63 | qt (both branches of Hill's algorithm), exact arithmetic | tail: the ratio of value and quantile follows a map of one variable whose error is cubed six times; the start is near enough because Hill's `d` lies within the log-convexity bounds of the gamma quotient. Centre: the density of the transformed normal variable over the normal density is 1 + O(dof^-4) uniformly on compact sets; the constant of the t density by the functional equation of the gamma quotient (monotone along steps of 2). The coefficients 3, 94.5, 36, 6.3, 0.4 and `d` by the same argument one order further (before the exponential is replaced by its Taylor polynomial, which costs an order). Start of the tail branch: the logarithmic derivative of the tail probability of the start value, as a function of `y`, is `dof/(2y)` up to third order (C63D) |
| C64 | `qinvgauss` with the meaning of its unqualified `abs` as a parameter (`Model/Abs.lean`): the floating overload or `int abs(int)` | induction on the iterations; with `int abs(int)` the residual, smaller than one, truncates to 0, the loop stops at once and the mode is returned for every probability (`C64_violated`) |
| C65 | `BLAZE_DIST_FN` and the Blaze form of `MAIN_MAT_RAND_DIST_FN` with an arbitrary division of the elements among threads (`Model/BlazeMap.lean`); loads and stores of the shared engine are separate steps | invariant over all interleavings for densities (no race, right values); for generators every execution has two unordered stores to the one engine (`C65_race_violated`), and even with ordered memory two threads can draw the same value (`C65_duplicate_violated`); `_partial`: one thread |
| C66 | the coded densities of C08 and C36 (no new model) | separate specification of Bayes' rule (`Spec/Conj.lean`); for a sample of any length by induction over the list, via the sufficient statistics of the likelihood; matrix case by rank-one updates. `_partial` where `dgamma`/`dweibull` restrict a scale to at least eps: the posterior of a valid gamma prior can have a scale below eps and is then NaN (`C66_gamma_pois_violated`) |
| C67 | the coded densities of C08 (no new model) | separate specification of a mixture (`Spec/Mix.lean`: finite values, integrable, value of the integral); weight times kernel is the claimed value times a density known to integrate to one (C12; for Laplace the mean of an inverse Gaussian, C52); sums by Vandermonde, binomial theorem and the exponential series |
| C68 | the generators of C29 to C33 and C50 (no new model); the program that feeds a draw into the next call is `hier` in `Spec/Hier.lean`. The conversion of a drawn count to an integer argument has no range there (in C++ it is undefined from 2^63 on, an event of positive but tiny probability for Poisson counts) | the inner generator is written as a measurable function of the parameter and of numbers drawn without it (normal, inversion, binomial loop by induction), so the pair of draws is a product law; Tonelli with the mixture identities of C67; for counts a sum over the values |
| C69 | all densities with an explicit estimate, and `mean`, `var`, `sum_absdiff` (no new model); likelihoods are folds over the sample in `Spec/Mle.lean` | likelihoods of the types `C θ^s exp(-tθ)` and `C p^s (1-p)^r`; strict maximum from `log x < x - 1`; nuisance parameters by shifting sums of squares. With Armadillo the root of `var` is not the estimate (`C69_norm_arma_violated`) |
| C70 | all densities named in the property (no new model); the ratio order is `MonoLR`, `MonoLRInt` in `Spec/Lr.lean` | the formulas of C08 written as `C exp(g x)`; differences of the exponents are monotone; products of powers for counts. The Cauchy family fails (`C70_cauchy_not`) |
| C71 | as C70; `LogConcave`, `LogConcaveInt` in `Spec/Lr.lean` | concavity of the exponents (squares, absolute value, `log(1+exp)` by its derivative, `log`, powers); `choose` by the absorption identities. `C71_gamma_not` shows that shape ≥ 1 is needed |
| C72 | the densities and distribution functions (no new model); `HazardOrder`, `MonoHazard`, `HazardIs`, `Memoryless` in `Spec/Hazard.lean` | the inequalities of C70 and C71 integrated over `(x, ∞)` and `(-∞, x]` with C13; closed forms for the explicit rates. Products instead of quotients where `1 - p` may be 0. `plnorm`, `pgamma`, `pchisq`, `pweibull` from the library's epsilon on, `pinvgamma` up to its inverse (the code cuts the rest off) |
| C73 | the densities in plain and log form (no new model); `Divergence`, `DivergenceInt` in `Spec/Entropy.lean` | the log ratio is an affine function of a statistic with a known mean (the moments behind C52); nonnegativity from `log t ≤ t - 1` integrated with the totals of C12, equality from a nonnegative function with integral 0. Families for which the statistic's mean is a digamma value (gamma in its shape, beta) are left out |

## 4. Where the code disagrees with the properties

Each item is proved; the theorem is named. Arguments in the order of the C++ call.

Wrong formula or wrong branch
* `dnorm(x)` with one argument returns the distribution function (`C22_dnorm_violated`).
* `pf(x, inf, df2, log)` returns `1 - log(..)` for `log(1 - ..)` (`C07_pf_violated`, `C09_pf_violated`).
* `qpois(p, rate)` returns one too much at every attained probability (`C19_qpois_violated`), 0 for rates below epsilon, and
  never returns for an infinite rate (`C20_qpois_inf_call_violated`). In binary64 the median for a rate of `2^63` or more
  converts a value out of range (`C20_qpois_double_violated`); rates from `2^63-2^34` on do so at the greatest double below 1
  (`C20_qpois_double_tail_violated`).
* `qbinom(1, n, 0)` is `n` (`C18_qbinom_violated`).
* `qt` passes `2p` to Hill's algorithm also for `p > 1/2`. It is not symmetric, not monotone with 3 degrees of freedom, and
  returns a point of probability below 0.998 for a probability above 0.9996 (`C42_qt_symm_violated`,
  `C42_qt_mono_violated`, `C42_qt_far_violated`). It is NaN for less than 1/2 degrees of freedom (`C42_qt_nan_violated`).
* Log form 0 instead of minus infinity: `dexp(inf, ..)`, `dunif` with an infinite bound (`C05_*_violated`, `C07_*_violated`).
* `dwish` with an integral `nu = K` wraps around (`C36_dwish_int_violated`).

NaN or a rejected argument where a value exists
* Parameters in `(0, eps)` are rejected: gamma scale, Weibull, F, t (`C04_*_violated`). As a consequence `pinvgamma` and
  `rinvgamma` give NaN for rates above `1/eps` (`C04_pinvgamma_violated`, `C32_rinvgamma_violated`).
* Points in `(0, eps)` are treated as 0: lognormal, gamma, chi-squared, F, Weibull (`C14_*_violated`, `C15_*_violated`).
* Scale 0: `dcauchy`, `pcauchy`, `dlogis`; `dweibull(0, 1, s)`; `pexp(inf, 0)`; `pinvgamma(0, k, 0)`; `df(inf, ..)`
  (`C04_*`, `C08_dweibull_zero_violated`, `C11_pexp_violated`, `C05_df_violated`).
* Wrong values at the atoms of degenerate laws and at infinite arguments: the list under C41, C43 and C45.
* Overflow in binary64: `punif`, `plogis`, `dlogis`, `pf`, `df`, `pinvgauss` (`C04_*_double_violated`); `df` can be
  negative (`C06_df_violated`).

Accuracy in binary64
* `qexp`, `qlaplace`, `qnorm` lose every probability below `2^-54`, `2^-55`, `2^-56`: 0 or minus infinity instead of the
  finite quantile (`C49_qexp_double_violated` and following). `qcauchy` is constant below `2^-55`. `qweibull` uses `log1p` and does not (`C49_qweibull`).
* `plogis(-200)`, `plaplace(-100)`, `pnorm(-100)`, `pcauchy(-2^60)` are 0 and minus infinity in log form
  (`C49_plogis_double_violated` and following). `pcauchy` loses a probability above `2^-62`.
* `pinvgauss(1, 1, lambda)` is exactly 1/2 for every `lambda` in [25, 300]: the second term is lost. The probability is
  above `1/2 + 1/(6 sqrt lambda)` (`C49_pinvgauss_double_violated`, by bounds on the complementary error function).
* Distribution functions above 1, with a positive logarithm, hence not monotone: `pinvgauss(7, 1, 7.6145)` by `7e-12`,
  `ppois(6, 3/256)` and `pbinom(2, 3, 2^-30 + 2^-54)` by one unit in the last place (`C09_*_double_violated`,
  `C10_*_double_violated`; files `C49F`, `C49G`).
* `qinvgauss` makes at most 100 steps from the mode and cannot reach the far tails, even in exact arithmetic: the value is
  never below the mode over 201 (`C21_qinvgauss_floor`), and `pinvgauss(qinvgauss(u))` stays in a closed interval inside
  `(0, 1)` for every `u` (`C15_qinvgauss_violated`).

* `var` (mean square minus squared mean) is negative for `(1.6, 1.6, 1.6)` (`C37_var_double_violated`). The error is a few units
  of the mean square (`C49_var`). Armadillo's form is never negative (`C37_var_arma_nonneg`).

Overflow of intermediate values in binary64
* `qunif(p, a, b)` is infinite at every `p` in `(0,1)` when `b - a` overflows, although `qunif(1, a, b) = b`
  (`C16_unif_double_violated`; without overflow it stays below `b`, `C16_unif_double`).
* `qpois` falls in binary64: with rate 31684 it returns 30219 at `2^-60` and 30218 at `7 * 2^-56` (`C16_qpois_double_violated`). `2p - 1`
  loses small probabilities, so the normal starting point can reach or pass the target, and a search that starts there returns its
  starting point less one.
* `qt` with 2 degrees of freedom falls between two neighbouring doubles near 1/8 (`C16_qt_two_double_violated`).
* `pt(x, 2)` is 1/2 in binary64 for every |x| from 2^512 on, because `x*x` overflows (`C10_pt_two_double_overflow`); `pf(x, 2, 2)`
  falls between the last two doubles below 16, because `1 + x` is rounded up (`C10_pf_double_violated`).
* `rinvgauss` computes its root as a difference that cancels when `mu` is much larger than `lambda`. For `mu = 2^60`, `lambda = 1` it
  returns `2^60` for every normal variate between 1 and 1024 in absolute value, so its law has an atom
  (`C33_rinvgauss_double_violated`). It can return 0 (`mu = 2^30`, `C28_rinvgauss_double_violated`), a negative number
  (`mu = 63 * 2^39`, `C28_rinvgauss_double_negative`) and NaN (`mu = 2^600`, `C28_rinvgauss_double_nan`).
* `rgamma` with a small shape multiplies by `pow(u, 1/shape)`, which underflows. Whenever the uniform variates are at most 5/8,
  `rbeta(2^-11, 2^-11)` and `rf(2^-10, 2^-10)` are NaN (0/0), `rt(2^-10)` and `rinvgamma(2^-11, 1)` infinite or NaN
  (`C28_rbeta_double_violated` and following, `C28B`). With an ideal engine this happens with positive probability, so none of the four has
  a law on the real numbers (`C32_rbeta_double_violated`, `C32_rf_double_violated`, `C32_rt_double_violated`, `C32_rinvgamma_double_violated`).
* For `B` from `2^1023` on `x - mu` or `2 * sigma` overflows: `pnorm(B, -B, B)` and `plaplace(B, -B, B)` are 1 instead of about 0.977 and
  0.932, `dunif(0, -B, B)` and `dlaplace(0, 0, B)` are 0 with logarithm minus infinity (`C49_pnorm_overflow_violated` and following, `C49L`).
* `qinvgauss(p, mu, 1)` is NaN at every double `p` from `2^-1000` to `1 - 2^-53` for means `2^30` to `2^250`: the computed mode is 0, where the
  density is 0, so the Newton iteration goes to infinity and then to NaN (`C15_qinvgauss_double_violated`).
* `dinvgauss(1, 2^600, 1)` is NaN, because `(x - mu)^2` and `mu^2` both overflow; the density is more than 1/10
  (`C04_dinvgauss_double_violated`).
* `dcauchy(2^20, 0, 2^-500)` and `dt(x, 1)` from `x = 2^512` on are 0 with log density minus infinity, because a square overflows; the
  densities are more than `2^-543` and, at `2^512`, more than `2^-1027` (`C49_dcauchy_double_violated`, `C49_dt_double_violated`).
* `dwish(X, Psi, nu)` and its logarithm are NaN whenever the determinants of `X` and `Psi` both overflow or both underflow, whatever
  linear algebra library is used (`X = Psi = 2^40 I` in dimension 30; `C36_dwish_double_violated`, `C36B`): it takes the logarithm of a
  determinant, where `dinvwish` and `dmvnorm` add logarithms of a Cholesky diagonal.
* `rwish` in dimension one with `nu = 2^-10` returns a zero matrix with positive probability (its chi-squared draw underflows), so it has no
  density on the positive definite matrices (`C35_rwish_double_violated`, `C47_rwish_double_violated`, `C47C`).
* `qnorm(0.5, mu, sigma)` is NaN for finite `sigma` as soon as √2·sigma overflows (`C16_norm_violated`).
* `dlogis(-800, 0, 1, log)` is minus infinity, since `exp(800)` overflows; `dlogis(800, 0, 1, log)` is -800
  (`C40_dlogis_reflect_violated`).
* In binary64 `pnorm`, `pcauchy`, `plaplace`, `plogis` and `pt` (1, 2 or infinitely many degrees of freedom) return 1/2 just above
  the median and 1/2 - 2^-54 at the mirrored point, so `p(-x) = 1 - p(x)` fails; the logistic quantiles of 1/2 - 2^-53 and
  1/2 + 2^-53 are not opposite (`C40_*_reflect_violated`). Errors of one rounding, listed for completeness.

Integer overflow (undefined behaviour)
* `dpois(x, rate)` and `ppois(x, rate)` compute `x + 1` in `long long`, which overflows at the greatest value
  (`C56_dpois_violated`, `C56_ppois_violated`). `qbinom(p, 2^63-1, 1)` overflows its counter (`C56_qbinom_violated`).
* `qpois` converts its starting value to `long long`: undefined from a rate of about `2^63` on (`C56_qpois_violated`). With an infinite
  rate the counter runs into the overflow (`C56_qpois_inf_violated`).

Generators
* With OpenMP a vector call seeds its engines from at most 1001 values each: the result depends on the number of threads
  (`C25_violated`), two engines can be the same (`C26_violated`), and the vector cannot have the right law
  (`C46_parallel_violated`).
* `rwish` with Blaze and no supplied factor does not have the Wishart law: Blaze's `chol` keeps the upper triangle of the
  argument, so even the mean is not `nu Psi` (`C47_rwish_violated`).
* `rmultinom` draws its first count from `std::random_device`, ends in undefined behaviour for `(1, 0)` and in binary64 for
  `(0.5, 0.3, 0.2)`, and uses the number of categories as the number of trials (`C34_*_violated`).
* `rgamma`, `rchisq`, `rt`, `rf`, `rbeta` accept an infinite shape or number of degrees of freedom and then never return: the
  acceptance test compares with NaN (`C55_*_violated`). `dt`, `pt` and `qt` treat that case.
* `rpois` returns 0 for every rate below epsilon (`C50_rpois_violated`); the law is off by at most the rate
  (`C50_rpois_small`).
* `rbern`, `rradem`, `rbinom` with an integral probability out of range return 0 instead of NaN (`C38_rand_violated`).

Types and containers
* `pbinom` computes and returns in the type of its probability argument (`C38_result_type_violated` and following). It and `rbern`,
  `rradem`, `rbinom` do not cast their probability (`C38_work_type_violated`).
* The discrete functions truncate a fractional point (`C38_callZ_violated`).
* The Blaze overloads of `p*` and `q*` do not compile (`C44_blaze_violated`).
* The lambdas passed to `blaze::map` by the generators capture the engine by reference; where Blaze uses threads they race
  for it and can return equal draws (`C65_race_violated`, `C65_duplicate_violated`).
* The scale of a gamma posterior, `scale/(1+n*scale)`, can fall below eps although prior and data are valid; `dgamma`
  then returns NaN (`C66_gamma_pois_violated`).
* The first count of `rmultinom` comes from an engine seeded with the 32 bits of `std::random_device`, so its probabilities
  are multiples of 2^-32; for most probability vectors the counts are not multinomial (`C48_rmultinom_violated`).
* `qinvgauss` calls `abs` unqualified; where only `int abs(int)` is visible it returns the mode (`C64_violated`).
* A `std::vector` result of `n * k >= 2^64` elements is too short (`C44_rand_length_violated`).
* Blaze `chol` keeps the upper triangle, so the covariance of `rmvnorm` is wrong; Blaze `repmat` and `cumsum`;
  `std::vector` `zeros`; the divisor of `var` (`C35_rmvnorm_violated`, `C37_*_violated`).

Seen while reading, outside the model (no theorem)
* The Armadillo `ArmaGen` overload of `dcauchy` is declared with template parameters `<mT,tT,T1,T2>` and defined with
  `<mT,tT,Tb>`.
* `qinvgauss` with one argument is declared and never defined.

{"id": "C01", "title": "Invalid parameters always give NaN", "statement": "Calling any scalar density, distribution or quantile function with a parameter outside its documented domain (or NaN) returns NaN, in plain and in log form, whatever the evaluation point is.", "quantifier": "every distribution, every evaluation point (finite, infinite or NaN), every invalid parameter tuple, both log_form values, every floating-point rounding rule", "why_tests_cant": "Tests probe a handful of invalid tuples; the claim covers an uncountable set of tuples and the order of the guards matters (an infinite x or p could be answered before the parameter check).", "anchors": ["include/stats_incl/dens/*.ipp d*_compute/d*_vals_check", "include/stats_incl/prob/*.ipp p*_vals_check", "include/stats_incl/quant/*.ipp q*_vals_check", "include/stats_incl/misc/sanity_checks/*.hpp"]}
{"id": "C02", "title": "A NaN evaluation point gives NaN", "statement": "With any parameters, evaluating a real-valued density or distribution function at NaN, or a quantile function at probability NaN, returns NaN.", "quantifier": "every continuous distribution, every parameter tuple, both log_form values, every rounding rule", "why_tests_cant": "NaN compares false with everything, so a guard in the wrong order silently turns NaN into 0 or 1 for some parameter combinations only.", "anchors": ["include/stats_incl/misc/sanity_checks/*.hpp", "include/stats_incl/dens/*.ipp", "include/stats_incl/prob/*.ipp", "include/stats_incl/quant/*.ipp"]}
{"id": "C03", "title": "Quantile of a non-probability is NaN", "statement": "A quantile function called with p < 0 or p > 1 (including infinities) returns NaN.", "quantifier": "every quantile function, every p outside [0,1], every parameter tuple", "why_tests_cant": "Uncountably many p and parameters.", "anchors": ["include/stats_incl/misc/sanity_checks/prob_val.hpp prob_val_check", "include/stats_incl/quant/*.ipp"]}
{"id": "C04", "title": "No NaN from valid input", "statement": "With valid finite parameters and a finite evaluation point, density and distribution functions never return NaN.", "quantifier": "every distribution, all valid finite parameters, all finite evaluation points", "why_tests_cant": "The bad points are isolated (for example x equal to the location with zero scale, or x = 0 with shape 1), so sampled tests miss them.", "anchors": ["include/stats_incl/dens/dlogis.ipp", "include/stats_incl/dens/dcauchy.ipp", "include/stats_incl/dens/dweibull.ipp", "include/stats_incl/dens/*.ipp", "include/stats_incl/prob/*.ipp"]}
{"id": "C05", "title": "Density vanishes outside the support", "statement": "Outside the support of the distribution the density is exactly 0, and the log-density exactly minus infinity.", "quantifier": "every distribution with restricted support, all valid parameters, all points outside the support including infinities, every rounding rule", "why_tests_cant": "The region outside the support is unbounded, and the log form takes a different code path.", "anchors": ["include/stats_incl/dens/*.ipp"]}
{"id": "C06", "title": "Densities are never negative", "statement": "With log_form false, no density function ever returns a negative number or minus infinity.", "quantifier": "every distribution, all arguments whatsoever (valid or not), every rounding rule and every math library whose exp is non-negative", "why_tests_cant": "Rounding could produce a tiny negative result at an untested point; the claim is about all inputs and all rounding rules.", "anchors": ["include/stats_incl/dens/*.ipp"]}
{"id": "C07", "title": "log_form is the logarithm of the plain form", "statement": "f(x, ..., log_form = true) equals log(f(x, ..., log_form = false)), with log(0) = -inf, for densities and distribution functions.", "quantifier": "every distribution, all valid finite parameters and all evaluation points including infinities, exact arithmetic", "why_tests_cant": "Tests compare a few points; the edge branches (infinite argument, infinite parameter) return constants that may not be adjusted for log_form.", "anchors": ["include/stats_incl/misc/internal_fns/log_if.hpp", "include/stats_incl/misc/internal_fns/exp_if.hpp", "include/stats_incl/dens/*.ipp", "include/stats_incl/prob/*.ipp"]}
{"id": "C08", "title": "Densities equal the textbook formulas", "statement": "In exact arithmetic the density functions return the textbook density of the named distribution in the documented parametrisation.", "quantifier": "every distribution, all valid finite parameters, all points of the support", "why_tests_cant": "Equality of two real functions on a continuum, including boundary cases of the parameters (zero scale, zero shape).", "anchors": ["include/stats_incl/dens/*.ipp"]}
{"id": "C09", "title": "Distribution functions take values in [0,1]", "statement": "With log_form false a distribution function returns a number between 0 and 1 or NaN; with log_form true it never returns a positive number.", "quantifier": "every distribution, all arguments, every rounding rule with a math library keeping its documented ranges", "why_tests_cant": "A value 1 + 1ulp at an untested point breaks callers that take log(1-p); only an argument over all roundings excludes it.", "anchors": ["include/stats_incl/prob/*.ipp"]}
{"id": "C10", "title": "Distribution functions are monotone", "statement": "If x <= y then the distribution function at x is at most the one at y, with the same valid parameters.", "quantifier": "every distribution, all valid finite parameters, all pairs x <= y including infinities", "why_tests_cant": "Quantifies over pairs of reals and over branch changes (eps cut-offs, switch of algorithm) between them.", "anchors": ["include/stats_incl/prob/*.ipp"]}
{"id": "C11", "title": "Distribution functions at plus and minus infinity", "statement": "At x = -inf the distribution function is 0 and at x = +inf it is 1 (log form: -inf and 0) for valid finite parameters.", "quantifier": "every real-argument distribution, all valid finite parameters, both log_form values, every rounding rule", "why_tests_cant": "The infinite-argument branches interact with parameter branches; all parameters must be covered.", "anchors": ["include/stats_incl/prob/*.ipp"]}
{"id": "C12", "title": "Densities integrate to one", "statement": "The integral over the real line of each continuous density function as coded (exact arithmetic) is 1.", "quantifier": "every continuous distribution, all valid non-degenerate finite parameters", "why_tests_cant": "An integral over the whole line for all parameters can not be sampled.", "anchors": ["include/stats_incl/dens/*.ipp"]}
{"id": "C13", "title": "The distribution function is the integral of the density", "statement": "For every x the value of the distribution function as coded is the integral of the density as coded over (-inf, x] (outside of the eps cut-off zones the code introduces).", "quantifier": "every continuous distribution, all valid non-degenerate finite parameters, all real x", "why_tests_cant": "An equality between two separately coded algorithms over a continuum.", "anchors": ["include/stats_incl/dens/*.ipp", "include/stats_incl/prob/*.ipp"]}
{"id": "C14", "title": "Quantile inverts the distribution function", "statement": "q(p(x)) = x for every x in the interior of the support of a continuous distribution.", "quantifier": "every continuous distribution with closed-form or library-inverse quantile, all valid non-degenerate parameters, all interior x", "why_tests_cant": "Inverse relation over a continuum of x and parameters.", "anchors": ["include/stats_incl/prob/*.ipp", "include/stats_incl/quant/*.ipp"]}
{"id": "C15", "title": "Distribution function inverts the quantile", "statement": "p(q(u)) = u for every u strictly between 0 and 1 for a continuous distribution.", "quantifier": "every continuous distribution, all valid non-degenerate parameters, all u in (0,1)", "why_tests_cant": "Inverse relation over a continuum.", "anchors": ["include/stats_incl/prob/*.ipp", "include/stats_incl/quant/*.ipp"]}
{"id": "C16", "title": "Quantiles are monotone and hit the ends of the support", "statement": "q is non-decreasing in the probability, q(0) is the lower end of the support and q(1) the upper end.", "quantifier": "every distribution, all valid parameters, all pairs of probabilities", "why_tests_cant": "Pairs of reals; separate code branches at 0 and 1.", "anchors": ["include/stats_incl/quant/*.ipp"]}
{"id": "C17", "title": "Discrete probabilities sum to one and the distribution function is their running sum", "statement": "For Bernoulli, binomial, Poisson, Rademacher the point probabilities sum to 1, and the distribution function at k is the sum of the point probabilities up to k.", "quantifier": "all valid parameters (any number of trials, any rate), all integers k", "why_tests_cant": "Infinite sums; the number of trials is unbounded; the Poisson cdf switches algorithm between rates and arguments.", "anchors": ["include/stats_incl/dens/dbern.ipp", "include/stats_incl/dens/dbinom.ipp", "include/stats_incl/dens/dpois.ipp", "include/stats_incl/dens/dradem.ipp", "include/stats_incl/prob/pbinom.ipp", "include/stats_incl/prob/ppois.ipp", "include/stats_incl/prob/pbern.ipp", "include/stats_incl/prob/pradem.ipp"]}
{"id": "C18", "title": "Finite discrete quantiles are generalised inverses", "statement": "qbern, qradem and qbinom return the smallest support point k with P(X <= k) >= p.", "quantifier": "all probabilities p in [0,1], all valid parameters, any number of trials", "why_tests_cant": "A loop with data-dependent length against a minimum over an unbounded family; ties are decisive and hard to hit in tests.", "anchors": ["include/stats_incl/quant/qbern.ipp", "include/stats_incl/quant/qradem.ipp", "include/stats_incl/quant/qbinom.ipp"]}
{"id": "C19", "title": "Poisson quantile is the generalised inverse", "statement": "qpois(p, rate) returns the smallest k with P(X <= k) >= p.", "quantifier": "all 0 < p < 1, all finite rates", "why_tests_cant": "The algorithm starts from a normal-approximation guess, so correctness needs a tail bound for all p and rates; equality cases p = F(k) are measure-zero.", "anchors": ["include/stats_incl/quant/qpois.ipp"]}
{"id": "C20", "title": "Discrete quantile searches terminate inside the support", "statement": "qbinom returns after at most n_trials+1 steps a value in {0..n_trials}; qpois returns for every finite rate and p < 1.", "quantifier": "all valid parameters and probabilities", "why_tests_cant": "Termination for all inputs; a test that hangs is only ever one input.", "anchors": ["include/stats_incl/quant/qbinom.ipp", "include/stats_incl/quant/qpois.ipp"]}
{"id": "C21", "title": "Inverse-Gaussian quantile iteration is bounded and its fixed points are quantiles", "statement": "qinvgauss stops after at most 100 iterations and, whenever the iteration has converged to a point x (its next update is exactly zero), x satisfies pinvgauss(x) = p.", "quantifier": "all p, mu, lambda; every library", "why_tests_cant": "Iteration count over all inputs; fixed-point characterisation over a continuum.", "anchors": ["include/stats_incl/quant/qinvgauss.ipp"]}
{"id": "C22", "title": "One-argument and default-parameter overloads agree with the full call", "statement": "dnorm(x), pnorm(x), qnorm(p) and rnorm()/runif() with omitted parameters equal the full call with the documented default parameters.", "quantifier": "every x, both log_form values", "why_tests_cant": "An overload that forwards to a wrong function agrees at isolated points.", "anchors": ["include/stats_incl/dens/dnorm.ipp", "include/stats_incl/prob/pnorm.ipp", "include/stats_incl/quant/qnorm.ipp", "include/stats_incl/rand/rnorm.ipp", "include/stats_incl/rand/runif.ipp"]}
{"id": "C23", "title": "Vector evaluation is elementwise evaluation, for every thread schedule", "statement": "The vector/matrix overloads of density, distribution and quantile functions fill every output element i with the scalar function at input element i, read and write only inside the buffers, and have no data race, whichever number of threads OpenMP provides and however the threads interleave.", "quantifier": "every length, every thread count, every interleaving of the threads' steps, every scalar function", "why_tests_cant": "Interleavings are exponentially many and lengths unbounded; index arithmetic is unsigned and the remainder loop starts one element early.", "anchors": ["include/stats_incl/misc/internal_fns/statslib_defs.hpp EVAL_DIST_FN_VEC"]}
{"id": "C24", "title": "Vector random generation fills every element and is schedule independent", "statement": "The vector random generators write every output element, stay in bounds, have no race on the engines, and for a fixed thread count the result depends only on the initial engine, not on the interleaving.", "quantifier": "every length, every thread count, every interleaving, every generator", "why_tests_cant": "Interleavings are exponentially many; a race shows rarely.", "anchors": ["include/stats_incl/misc/internal_fns/statslib_defs.hpp RAND_DIST_FN_VEC"]}
{"id": "C25", "title": "Vector random output does not depend on the number of threads", "statement": "With the same seed the vector generators return the same vector whatever the number of OpenMP threads.", "quantifier": "every length, seed and pair of thread counts", "why_tests_cant": "Requires comparing machines with different thread counts for all lengths.", "anchors": ["include/stats_incl/misc/internal_fns/statslib_defs.hpp RAND_DIST_FN_VEC"]}
{"id": "C26", "title": "Per-thread seeds are pairwise distinct", "statement": "The seeds given to the per-thread engines in one vector call are pairwise different.", "quantifier": "every initial engine state, every thread count", "why_tests_cant": "The seeds are random; a collision is a rare event that tests do not see.", "anchors": ["include/stats_incl/misc/internal_fns/seed_values.hpp generate_seed_value"]}
{"id": "C27", "title": "Seed overloads are reproducible", "statement": "A generator called with a seed value returns what the engine overload returns on a fresh engine built from this seed; equal seeds give equal results.", "quantifier": "every generator, all parameters, all seeds", "why_tests_cant": "All seeds and parameters; an overload that drops the seed still passes a distributional test.", "anchors": ["include/stats_incl/rand/*.ipp"]}
{"id": "C28", "title": "Draws lie in the support", "statement": "Every value returned by a scalar generator with valid parameters lies in the support of the distribution.", "quantifier": "all engine states (all uniform / normal variates the standard library may return), all valid parameters", "why_tests_cant": "Corner variates (uniform exactly 0, very large normals) have negligible probability in tests.", "anchors": ["include/stats_incl/rand/*.ipp"]}
{"id": "C29", "title": "Inverse-transform generators have the right law", "statement": "If the engine's uniform variate is uniform on [0,1), then rexp, rcauchy, rlaplace, rlogis, rweibull, runif and rbern/rradem results follow the named distribution.", "quantifier": "all valid parameters, all events (measurable sets)", "why_tests_cant": "Equality of laws; statistical tests only reject with some power.", "anchors": ["include/stats_incl/rand/rexp.ipp", "include/stats_incl/rand/rcauchy.ipp", "include/stats_incl/rand/rlaplace.ipp", "include/stats_incl/rand/rlogis.ipp", "include/stats_incl/rand/rweibull.ipp", "include/stats_incl/rand/runif.ipp", "include/stats_incl/rand/rbern.ipp", "include/stats_incl/rand/rradem.ipp"]}
{"id": "C30", "title": "Binomial generator has the binomial law", "statement": "If the engine's uniforms are independent and uniform on [0,1), rbinom(n,p) follows the binomial distribution with n trials and success probability p.", "quantifier": "all n, all p", "why_tests_cant": "Equality of laws for an unbounded number of trials.", "anchors": ["include/stats_incl/rand/rbinom.ipp"]}
{"id": "C31", "title": "Gamma generator: termination and law", "statement": "rgamma's acceptance loop stops with probability one and the accepted value follows the gamma distribution with the given shape and scale.", "quantifier": "all valid finite shapes and scales", "why_tests_cant": "Correctness of a rejection sampler is an equality of laws; termination is a probability-one statement.", "anchors": ["include/stats_incl/rand/rgamma.ipp"]}
{"id": "C32", "title": "Derived generators have the right law", "statement": "rnorm, rlnorm, rchisq, rinvgamma, rbeta, rf, rt follow their named distribution when the primitive draws do.", "quantifier": "all valid parameters", "why_tests_cant": "Equality of laws.", "anchors": ["include/stats_incl/rand/rnorm.ipp", "include/stats_incl/rand/rlnorm.ipp", "include/stats_incl/rand/rchisq.ipp", "include/stats_incl/rand/rinvgamma.ipp", "include/stats_incl/rand/rbeta.ipp", "include/stats_incl/rand/rf.ipp", "include/stats_incl/rand/rt.ipp"]}
{"id": "C33", "title": "Inverse-Gaussian generator has the right law", "statement": "rinvgauss(mu, lambda) returns a positive root of the transformation equation and follows the inverse-Gaussian distribution when its normal and uniform variates do.", "quantifier": "all mu, lambda > 0", "why_tests_cant": "Equality of laws of a many-to-one transformation method.", "anchors": ["include/stats_incl/rand/rinvgauss.ipp"]}
{"id": "C34", "title": "Multinomial counts", "statement": "rmultinom returns counts that are non-negative, sum to the number of trials, and are produced only from the engine passed in.", "quantifier": "every probability vector, every engine", "why_tests_cant": "Sum invariant through a loop of conditional binomials of unbounded length.", "anchors": ["include/stats_incl/rand/rmultinom.ipp"]}
{"id": "C35", "title": "Multivariate generators: shape and algebra", "statement": "rmvnorm returns mu + L z with L L' = Sigma and z standard normal draws (so mean mu and covariance Sigma), returns an empty object on a dimension mismatch; rwish returns a symmetric positive semi-definite matrix.", "quantifier": "every dimension, every mu, Sigma and every draw", "why_tests_cant": "All dimensions and all draws.", "anchors": ["include/stats_incl/rand/rmvnorm.ipp", "include/stats_incl/rand/rwish.ipp", "include/stats_incl/rand/rinvwish.ipp"]}
{"id": "C36", "title": "Multivariate densities equal their formulas", "statement": "dmvnorm, dwish and dinvwish return the textbook density (or its log) in exact arithmetic.", "quantifier": "every dimension, all symmetric positive definite parameters", "why_tests_cant": "All dimensions; matrix determinants and inverses.", "anchors": ["include/stats_incl/dens/dmvnorm.ipp", "include/stats_incl/dens/dwish.ipp", "include/stats_incl/dens/dinvwish.ipp"]}
{"id": "C37", "title": "Matrix helper functions compute what their names say", "statement": "The matrix helpers (cumulative sum, mean, variance, sum of absolute differences, repeat, zeros, eye, quadratic form, transpose, log determinant) compute the named operation.", "quantifier": "all sizes and all entries", "why_tests_cant": "All sizes; layout bugs only show for particular shapes (more than one block, padded rows, non-empty input).", "anchors": ["include/stats_incl/misc/matrix_ops/*.hpp"]}
{"id": "C38", "title": "Integral argument types are promoted to double", "statement": "For integral argument types the functions compute in double: the result type is double, and mixed argument types use the common type, so integer division or truncation never occurs.", "quantifier": "every combination of the C++ arithmetic types", "why_tests_cant": "The overload set is a finite but large cross product of types; the result type of random generators on integral types is a separate code path.", "anchors": ["include/stats_incl/misc/statslib_options.hpp return_t common_return_t", "include/stats_incl/rand/rbern.ipp", "include/stats_incl/prob/pbinom.ipp"]}
{"id": "C39", "title": "Relations between distributions", "statement": "Documented special cases agree: chi-squared(k) = gamma(k/2, 2), exponential(r) = gamma(1, 1/r) = weibull(1, 1/r), t(1) = Cauchy(0,1), log-normal = exp of normal, inverse-gamma = reciprocal of gamma, Bernoulli = binomial(1), F = ratio form of beta.", "quantifier": "all valid parameters and points, for density, distribution and quantile functions", "why_tests_cant": "Equality of separately coded algorithms over a continuum.", "anchors": ["include/stats_incl/dens/*.ipp", "include/stats_incl/prob/*.ipp", "include/stats_incl/quant/*.ipp"]}
{"id": "C40", "title": "Symmetry and location-scale equivariance", "statement": "For the normal, Cauchy, Laplace, logistic and t families: density(mu+d) = density(mu-d), cdf(mu-d) = 1 - cdf(mu+d), quantile(1-p) reflects quantile(p), and changing location/scale shifts and scales as it should.", "quantifier": "all parameters and points", "why_tests_cant": "Identities over a continuum; separate branches for the two halves (Laplace, t).", "anchors": ["include/stats_incl/dens/*.ipp", "include/stats_incl/prob/*.ipp", "include/stats_incl/quant/*.ipp"]}
{"id": "C41", "title": "Degenerate (zero-scale) parameters behave like point masses", "statement": "With scale 0 (normal, log-normal, Laplace, ...) the distribution function is the unit step at the location, the density is 0 away from it and +inf at it, and the generators return the location.", "quantifier": "all locations, all points, every rounding rule", "why_tests_cant": "Measure-zero parameter values with separate branches.", "anchors": ["include/stats_incl/dens/dnorm.ipp", "include/stats_incl/dens/dlaplace.ipp", "include/stats_incl/dens/dlogis.ipp", "include/stats_incl/dens/dcauchy.ipp", "include/stats_incl/prob/pnorm.ipp", "include/stats_incl/prob/pcauchy.ipp", "include/stats_incl/prob/plaplace.ipp", "include/stats_incl/prob/plogis.ipp", "include/stats_incl/rand/rnorm.ipp"]}
{"id": "C42", "title": "Student-t quantile solves the t distribution function", "statement": "qt(p, dof) returns x with pt(x, dof) = p for the degrees of freedom with closed forms (1, 2, infinity), qt(1-p) = -qt(p) for all degrees of freedom, and a number (not NaN) for every valid dof.", "quantifier": "all p in (0,1), all valid dof", "why_tests_cant": "Continuum of p; the general branch uses an asymptotic expansion whose radicand can become negative for small dof.", "anchors": ["include/stats_incl/quant/qt.ipp", "include/stats_incl/prob/pt.ipp"]}
{"id": "C43", "title": "Values at infinite arguments are limits", "statement": "With an infinite evaluation point, location, scale, shape, rate or degree of freedom accepted by the sanity check, the density, distribution function and quantile (plain and log form) return the limit of their values at finite arguments, away from the atoms of the limit law.", "quantifier": "all finite values of the other arguments, both log forms, exact arithmetic", "why_tests_cant": "A limit is a statement about infinitely many finite arguments; each infinite argument has its own hand-written branch.", "anchors": ["include/stats_incl/dens/*.ipp", "include/stats_incl/prob/*.ipp", "include/stats_incl/quant/*.ipp"]}
{"id": "C44", "title": "Vector and matrix overloads apply the scalar function entry by entry", "statement": "For every density, distribution, quantile and random function and every container type, the overload for containers returns a container of the right shape whose entry (i,j) is the scalar function of entry (i,j) (or a draw of the scalar generator) with the same parameters in the same order, whatever the storage order, number of threads and schedule; the seed overload equals the engine overload with an engine made from the seed.", "quantifier": "all 76 functions, all four container types, all shapes below 2^64 elements, all storage orders the libraries allow, all thread counts and schedules", "why_tests_cant": "There are 382 hand-copied macro calls, most only compiled with a given matrix library, and a swapped or dropped parameter shows only for some values; shapes and schedules are unbounded.", "anchors": ["include/stats_incl/misc/internal_fns/statslib_defs.hpp:149-244", "include/stats_incl/dens/*.ipp", "include/stats_incl/prob/*.ipp", "include/stats_incl/quant/*.ipp", "include/stats_incl/rand/*.ipp", "include/stats_incl/misc/matrix_ops/spacing.hpp", "include/stats_incl/misc/matrix_ops/resize.hpp"]}
{"id": "C45", "title": "Several infinite arguments at once give the joint limit, or NaN where there is none", "statement": "For the normal, Cauchy, Laplace and logistic densities and distribution functions, whenever some of point, location and scale are infinite, the value returned is the limit of the values along every path of finite arguments running there; where two paths have different limits the value is NaN. At probability 0 or 1 with infinite location the quantile function does the same.", "quantifier": "all points and locations in [-inf, inf], all scales in (0, inf], every path of finite arguments", "why_tests_cant": "A test of inf against inf only compares with another table of special cases; whether a limit exists is a statement about all paths.", "anchors": ["include/stats_incl/dens/dnorm.ipp", "include/stats_incl/dens/dcauchy.ipp", "include/stats_incl/dens/dlaplace.ipp", "include/stats_incl/dens/dlogis.ipp", "include/stats_incl/prob/pnorm.ipp", "include/stats_incl/prob/pcauchy.ipp", "include/stats_incl/prob/plaplace.ipp", "include/stats_incl/prob/plogis.ipp", "include/stats_incl/quant/qnorm.ipp", "include/stats_incl/quant/qcauchy.ipp", "include/stats_incl/quant/qlaplace.ipp", "include/stats_incl/quant/qlogis.ipp"]}
{"id": "C46", "title": "The entries of a generated vector are independent and have the named law", "statement": "A vector filled by a generator holds independent numbers, each with the law of the scalar generator, and leaves an engine that is as random as before and independent of them.", "quantifier": "all generators whose scalar call has a law, all lengths, all thread counts, all schedules, almost every engine state", "why_tests_cant": "Independence is a statement about the joint distribution over all engine states; a sample can pass any finite set of tests although only a thousand different vectors can ever come out.", "anchors": ["include/stats_incl/misc/internal_fns/statslib_defs.hpp:76-119", "include/stats_incl/misc/internal_fns/statslib_defs.hpp:134-141", "include/stats_incl/misc/internal_fns/seed_values.hpp:29-34"]}
{"id": "C47", "title": "rwish and rinvwish draw from the laws whose densities dwish and dinvwish compute", "statement": "The matrix rwish generates has, on the positive definite matrices, the density dwish computes at the same scale matrix and degrees of freedom; rinvwish has the density of dinvwish. Both densities have total mass one, the mean of rwish is the scale matrix times the degrees of freedom, and the engine left behind is as random as before and independent of the matrix.", "quantifier": "all dimensions K, all positive definite scale matrices, all real degrees of freedom above K-1, all libraries, supplied factor or not, almost every engine state", "why_tests_cant": "The law is a measure on K(K+1)/2 coordinates over all engine states; a sample of matrices can only be compared through a few moments, and the density would have to be integrated over the cone of positive definite matrices.", "anchors": ["include/stats_incl/rand/rwish.ipp", "include/stats_incl/rand/rinvwish.ipp", "include/stats_incl/dens/dwish.ipp", "include/stats_incl/dens/dinvwish.ipp", "include/stats_incl/misc/matrix_ops"]}
{"id": "C48", "title": "The counts of rmultinom have the multinomial law", "statement": "The vector of counts rmultinom returns is distributed like the counts of as many independent trials as there are categories, with the given probabilities; the engine left behind is as random as before and independent of the counts.", "quantifier": "all numbers of categories from two on, all probability vectors whose proper partial sums are below one, every seed of the second engine, almost every state of the first", "why_tests_cant": "The joint law of the counts is a statement over all engine states and all count vectors; a chi-square test sees neither dependence between categories nor the second engine.", "anchors": ["include/stats_incl/rand/rmultinom.ipp:25-61", "include/stats_incl/rand/rbinom.ipp", "include/stats_incl/misc/matrix_ops/cumsum.hpp"]}
{"id": "C49", "title": "Rounding errors of densities, distribution functions and quantiles stay a few units", "statement": "In floating-point arithmetic with unit roundoff u, every density, distribution function and quantile returns the exact value of the distribution up to an explicit, small number of rounding errors of the quantities it adds, in plain and in log form; where nothing is subtracted from one the error is relative. Small probabilities and far tails keep their relative accuracy.", "quantifier": "all arguments in range, all parameter values, all libraries whose operations and functions are accurate to u, for every u below one", "why_tests_cant": "The bound holds for every argument and every way the individual operations round; a test compares finitely many points with one library, and the points where a tail is lost are not among those usually tried.", "anchors": ["include/stats_incl/dens", "include/stats_incl/prob", "include/stats_incl/quant/qexp.ipp:34-38", "include/stats_incl/quant/qlaplace.ipp:34-38", "include/stats_incl/quant/qnorm.ipp:34-38", "include/stats_incl/quant/qweibull.ipp:34-38"]}
{"id": "C50", "title": "The generators follow their laws up to an explicit distance, with the interval the code really uses", "statement": "runif(0,1) draws from [nextafter(0,1), 1), not from (0,1). With d = nextafter(0,1), the law of each generator differs from the stated distribution by at most a small explicit multiple of d on every event: d for the generators by inversion, n*d for rbinom, 7d for rgamma and rchisq (including the rejection loop), 14d for rbeta and rf, K*7d for a K by K Wishart matrix, and n times the bound of one variate for a vector of n; the engine left behind is as random as before and independent of the result.", "quantifier": "all parameter values in range, all events, every engine with ideal draws, every d up to 1/30 (below 1 where there is no rejection)", "why_tests_cant": "A distance of the order of the least positive number is invisible in any sample, and the bound holds for every event and every parameter; how a rejection loop amplifies it cannot be observed at all.", "anchors": ["include/stats_incl/rand/runif.ipp:34-46", "include/stats_incl/rand/rgamma.ipp:34-66", "include/stats_incl/rand/rbinom.ipp", "include/stats_incl/rand/rwish.ipp", "include/stats_incl/rand/rmultinom.ipp:25-61"]}
{"id": "C51", "title": "Changing the unit of measurement: functions and generators scale and reflect as the distributions do", "statement": "If X has one of the scale families (exponential, gamma, Weibull, inverse gamma, inverse Gaussian, log-normal, uniform) then the density, distribution function and quantile with the scaled parameters are those of cX: d(cx) = d(x)/c, p(cx) = p(x), q(u) is multiplied by c; the generators with scaled parameters return c times the same draw and leave the same engine state (also mu + sigma times the draw for normal, Cauchy, Laplace, logistic), and a rejection loop ends for one exactly if it ends for the other. Reflections: beta under x -> 1-x, F under x -> 1/x, binomial, Bernoulli and Rademacher with failures for successes. ppois and pbinom are tails of pgamma and pbeta. The inverse-Gaussian quantile iteration scales exactly although it does not return the quantile.", "quantifier": "all parameter values in range, all factors c > 0, all evaluation points and probabilities, all engine states; exact arithmetic", "why_tests_cant": "The identities tie together values at uncountably many pairs of arguments and parameters, and for the generators every engine state; a test sees finitely many pairs and with rounding never an equality.", "anchors": ["include/stats_incl/dens/dgamma.ipp", "include/stats_incl/prob/pgamma.ipp", "include/stats_incl/quant/qinvgauss.ipp:48-108", "include/stats_incl/rand/rgamma.ipp:34-76", "include/stats_incl/rand/rinvgauss.ipp:34-55", "include/stats_incl/prob/pbinom.ipp", "include/stats_incl/prob/ppois.ipp"]}
{"id": "C52", "title": "Means and variances of densities, generators and generated samples", "statement": "In exact arithmetic every density and every table of point probabilities has the mean and the variance that the theory gives its distribution (for instance shape*scale and shape*scale^2 for the gamma family, sigma^2 pi^2/3 for the logistic variance, mu^3/lambda for the inverse Gaussian variance), and has no mean where the distribution has none (Cauchy; t up to one degree of freedom; F with at most two denominator degrees; inverse gamma with shape up to one). The result of each generator has the same expectation and variance over the states of an ideal engine. For a generated vector of n numbers, mean() has expectation m and variance v/n and var() has expectation v.", "quantifier": "all parameter values in range, all vector lengths, every engine with ideal draws; exact arithmetic", "why_tests_cant": "A sample mean only estimates an expectation, with an error that shrinks like the root of the sample size, and no sample shows that an expectation does not exist; the statement is an identity between integrals for uncountably many parameters.", "anchors": ["include/stats_incl/dens", "include/stats_incl/rand", "include/stats_incl/misc/matrix_ops/mean.hpp:28-55", "include/stats_incl/misc/matrix_ops/var.hpp:28-71"]}
{"id": "C53", "title": "Parameters move distribution functions, quantiles and draws the right way", "statement": "A larger location, scale (of a positive variable), shape, degrees of freedom, success probability, number of trials or rate moves the whole distribution the way the theory says: the distribution function falls (or rises, for the rate of the exponential, the second beta parameter and the inverse gamma shape) at every argument including the infinities, in plain and log form, and is never NaN; the quantile rises (or falls) at every probability in [0,1]; and from one engine state the draw rises (or falls) while the engine is left in the same state and a rejection loop ends for all parameters or for none. A larger scale of a location family spreads distribution function and quantile about the median; a larger Weibull shape or more t degrees of freedom concentrate it about the scale or 0.", "quantifier": "all pairs of ordered parameter values in range, all arguments and probabilities, all engine states; every monotone rounding for the distribution functions of the location and scale families, exact arithmetic for the rest", "why_tests_cant": "The order has to hold between uncountably many pairs of parameters at every argument; a test with an independent reference compares values at single parameters with a tolerance and never sees an inversion smaller than the tolerance, nor whether coupled draws stay ordered from every engine state.", "anchors": ["include/stats_incl/prob", "include/stats_incl/quant", "include/stats_incl/rand"]}
{"id": "C54", "title": "Densities rise up to their mode and fall after it", "statement": "Every density (and the binomial, Poisson and Bernoulli probabilities) rises up to its textbook mode and falls after it, in plain and log form: strictly inside the support, and weakly over the whole line with the ends of the support and the infinities; a beta density with both parameters below 1 falls and then rises.", "quantifier": "all parameters in range and all pairs of ordered arguments including the infinities; every monotone rounding (binary64 among them) for normal, Laplace, Cauchy, t, exponential and uniform, exact arithmetic for the rest", "why_tests_cant": "The order has to hold between uncountably many pairs of arguments for all parameters; tests compare single values with a tolerance and do not see a wrong sign of the slope where the density is flat or a wrong value at an end of the support.", "anchors": ["include/stats_incl/dens"]}
{"id": "C55", "title": "How many random variates a call takes", "statement": "A generator without a rejection loop takes a fixed number of variates from the engine (none if it rejects its parameters; n for rbinom, K per row for rmvnorm), and counting them changes neither the results nor the states. rgamma takes on average at most 10/3 variates (13/3 for shapes up to 1), and more than 2n+1 with probability at most (2/5)^n, whatever the parameters; rchisq, rinvgamma, rt, rf, rbeta, rwish and rinvwish have the corresponding bounds.", "quantifier": "all parameters and engine states and every arithmetic for the fixed counts; all finite parameters in range, exact arithmetic and an engine with the right laws for the averages and tails", "why_tests_cant": "The bounds hold for all shapes at once, and an average over all states of an engine is not a finite number of runs. A loop that does not end for one parameter (an infinite shape) shows up only if exactly that parameter is tried.", "anchors": ["include/stats_incl/rand/rgamma.ipp", "include/stats_incl/rand"]}
{"id": "C56", "title": "No signed overflow and no undefined conversion in the recursive scalar functions", "statement": "For arguments in the range of long long, dbinom, pbinom, qbinom, dpois, ppois, qpois and qinvgauss return the value of the model with unbounded integers without an operation on long long or int that leaves its range, and without converting a floating value that does not fit. Exceptions: dpois, ppois at x = 2^63-1, qbinom with 2^63-1 trials (shown for success probability 1), qpois when its value exceeds 2^63-2 or the rate is infinite.", "quantifier": "all integers of 64 bits, all floating arguments including NaN and infinities, every arithmetic; qpois: real rates >= 0 and probabilities in [0,1), and the infinite rate, in exact arithmetic", "why_tests_cant": "The offending arguments are single values out of 2^64, some are reached only after 2^63 steps, and undefined behaviour need not be visible in a run.", "anchors": ["include/stats_incl/dens/dpois.ipp:34-38", "include/stats_incl/dens/dbinom.ipp:34-80", "include/stats_incl/prob/ppois.ipp:34-76", "include/stats_incl/prob/pbinom.ipp:34-60", "include/stats_incl/quant/qbinom.ipp:34-60", "include/stats_incl/quant/qpois.ipp:34-86", "include/stats_incl/quant/qinvgauss.ipp:48-108"]}
{"id": "C57", "title": "Number of calls and depth of the recursive scalar functions", "statement": "pbinom(x, n, .) with 0 <= x < n and n >= 2 makes exactly 2x+3 counted calls, x+3 of them active at the same time. qbinom with 0 < p < 1, n >= 2 and value k < n makes exactly (k+1)(k+4)+2, 2k+5 at a time; with any value k at most (k+1)(2k+4)+2. ppois makes at most 17, qinvgauss at most 404 (203 at a time). qpois with value k makes between k+3 and 18k+20 for rates below 11, and at most 18(k-s)+37 for rates from 11 on, where s is its starting point.", "quantifier": "all arguments in range for which the call is defined, every arithmetic (qpois: exact arithmetic)", "why_tests_cant": "A formula for all arguments; the depth of a recursion is not visible in its result, and where it exceeds the stack depends on the machine.", "anchors": ["include/stats_incl/prob/pbinom.ipp:34-40", "include/stats_incl/prob/ppois.ipp:34-59", "include/stats_incl/quant/qbinom.ipp:34-40", "include/stats_incl/quant/qpois.ipp:34-61", "include/stats_incl/quant/qinvgauss.ipp:48-76"]}
{"id": "C58", "title": "Draws and samples reproduce the distribution function", "statement": "For each of the 19 scalar generators r and the distribution function p of the same family: the probability that a draw is at most x equals p(x) up to the offset of runif (times a constant of the family). In a vector of n draws the share of elements <= x differs from p(x) by more than eps plus that offset with probability at most 2 exp(-2 n eps^2), and for all x at the same time by more than eps + 1/m with probability at most 4 m exp(-2 n eps^2), for every m. The mean of the vector misses the mean of the distribution by eps or more with probability at most variance/(n eps^2).", "quantifier": "all admissible parameters, all lengths n, all eps > 0, all x, every fair engine; exact arithmetic", "why_tests_cant": "The claim is about probabilities over all streams of the engine, for all lengths and at all points at the same time; a run sees one stream.", "anchors": ["include/stats_incl/rand", "include/stats_incl/prob", "include/stats_incl/misc/internal_fns/statslib_defs.hpp:76-119", "include/stats_incl/misc/matrix_ops/mean.hpp:28-55"]}
{"id": "C59", "title": "Draws from an engine that is only nearly fair, with and without rounding", "statement": "Let the distribution functions of the uniform and normal variates of the engine be within eta of the ideal ones (an engine with 32 random bits: eta = 2^-32). Then the probability that a draw of runif, rexp, rcauchy, rlaplace, rlogis, rweibull, rpois, rnorm, rlnorm is at most x differs from the distribution function of the family at x by at most eta plus the offset of runif; rbern and rradem return each value with its probability up to that distance, in every arithmetic; rbinom with independent draws is exactly binomial with a success probability that close to prob. With every operation rounded, the probability that a draw of rexp, rlogis, rcauchy, rlaplace, rweibull, rnorm or rlnorm is at most x lies between the exact distribution function at two points next to x, at a distance of a few units in the last place of |mu| + sigma + |x - mu|, up to eta plus the offset; for rcauchy, rlaplace and rweibull up to three times that plus a few units in the last place of 1. For rpois with a rate below 11 every P(X <= K), K < 2^19, is that close to the Poisson probability, plus the error of ppois.", "quantifier": "all admissible parameters, all x, all eta, every engine with variates within eta; exact arithmetic, and every arithmetic with relative rounding error", "why_tests_cant": "A probability over all states of the engine, for every x; deviations of 2^-32 would take some 2^64 draws to be seen.", "anchors": ["include/stats_incl/rand/runif.ipp", "include/stats_incl/rand/rexp.ipp", "include/stats_incl/rand/rcauchy.ipp", "include/stats_incl/rand/rlaplace.ipp", "include/stats_incl/rand/rlogis.ipp", "include/stats_incl/rand/rweibull.ipp", "include/stats_incl/rand/rpois.ipp", "include/stats_incl/rand/rbern.ipp", "include/stats_incl/rand/rradem.ipp", "include/stats_incl/rand/rbinom.ipp", "include/stats_incl/rand/rnorm.ipp", "include/stats_incl/rand/rlnorm.ipp"]}
{"id": "C60", "title": "Relations between generators: sums, quotients, powers and extremes of successive draws", "statement": "A program that draws twice (or n+1 times) from the generators, always with the engine left behind by the previous draw, and adds, multiplies, divides, squares or compares the numbers gets the law that the theory predicts: rnorm+rnorm is normal, rnorm/rnorm (centred) is Cauchy, the sum of n+1 squares of rnorm(0,1) is chi-squared with n+1 degrees, rlnorm*rlnorm is lognormal (all exactly); rgamma+rgamma is gamma, rchisq+rchisq chi-squared, 1/rf(a,b) is F(b,a), rt^2 is F(1,dof), 1-rbeta(a,b) is beta(b,a), the sum of n+1 rexp is gamma, rexp-rexp Laplace, log(rexp/rexp) logistic, min(rexp,rexp) exponential, min of two rweibull of one shape Weibull, a power of rweibull exponential, rcauchy+rcauchy Cauchy and the mean of n+1 rcauchy has the law of one draw, rpois+rpois Poisson (all up to a stated multiple of nextafter(0,1) in the probability of any event). From every engine state rbinom(n,p) followed by rbinom(m,p) adds to rbinom(n+m,p), n+1 rbern add to rbinom(n+1,p), and rradem is 2*rbern-1.", "quantifier": "for all parameters that pass the checks (as stated per theorem), all n, every engine whose draws are fair and independent; for the binomial, Bernoulli and Rademacher identities every engine state", "why_tests_cant": "An equality of laws is a statement about infinitely many events and infinitely many engine states; a finite sample can only fail to reject it, and would not see a dependence between successive draws on a rare set of states.", "anchors": ["include/stats_incl/rand/rnorm.ipp:31-44", "include/stats_incl/rand/rlnorm.ipp", "include/stats_incl/rand/rgamma.ipp:31-76", "include/stats_incl/rand/rchisq.ipp", "include/stats_incl/rand/rf.ipp", "include/stats_incl/rand/rt.ipp", "include/stats_incl/rand/rbeta.ipp", "include/stats_incl/rand/rexp.ipp", "include/stats_incl/rand/rweibull.ipp", "include/stats_incl/rand/rcauchy.ipp", "include/stats_incl/rand/rpois.ipp", "include/stats_incl/rand/rbinom.ipp:31-47", "include/stats_incl/rand/rbern.ipp", "include/stats_incl/rand/rradem.ipp"]}
{"id": "C61", "title": "Projections, sums and inverses of the multivariate draws", "statement": "A program that calculates with a vector from rmvnorm or a matrix from rwish or rinvwish gets the law the theory predicts. Normal vectors (exactly): a linear form a'x is normal(a'mu, sqrt(a'Sigma a)); b+Bx is multivariate normal with mean b+B mu and covariance B Sigma B'; the squared distance (x-mu)'Sigma^-1(x-mu) is chi-squared with K degrees; the sum of two draws has the sums of means and covariances; the mean of the n rows of a sample has covariance Sigma/n; the scatter matrix of a centred sample of n >= K rows has the Wishart law with n degrees, the one rwish draws from. Wishart matrices (up to K*7*nextafter(0,1) in the probability of any event, twice that for a sum): the sum of two draws with one scale matrix has the sum of the degrees of freedom; A X A' has scale A Psi A'; a'Xa/a'Psi a is chi-squared with nu degrees; det X/det Psi is a product of independent chi-squared numbers with nu, nu-1, ..., nu-K+1 degrees; the inverse of a draw of rinvwish is Wishart with scale Psi^-1. The covariance is handed over as the matrix (Armadillo, Eigen) or as a nonsingular factor (every library).", "quantifier": "all dimensions K, all positive definite matrices, all mu, a, b, B, A with the stated rank, all nu > K-1, all sample sizes and memory layouts, every engine whose draws are fair and independent; exact arithmetic", "why_tests_cant": "Equality of laws of random vectors and matrices in every dimension: infinitely many events, matrices and engine states; a finite sample can only fail to reject it.", "anchors": ["include/stats_incl/rand/rmvnorm.ipp", "include/stats_incl/rand/rwish.ipp", "include/stats_incl/rand/rinvwish.ipp"]}
{"id": "C62", "title": "The classical tests and intervals, put together from the functions of the library", "statement": "A program fills a buffer with rnorm, summarises it with mean and var, and looks the statistic up with pnorm, pt, pchisq or pf. For a sample of n >= 2 numbers from normal(mu, sigma): the mean is normal(mu, sigma/sqrt(n)); the standardised mean and (n-1)s^2/sigma^2 are independent, standard normal and chi-squared with n-1 degrees; the t statistic has n-1 degrees. The p-values of the z-test, the t-test and the pooled two-sample t-test are uniform on [0,1]. With pchisq (test of the variance) and pf (ratio of two variances, F with n-1 and m-1 degrees) the p-value is at most u with probability max(u, value at epsilon): both functions treat an argument below epsilon as 0. Intervals from qnorm (mean), qchisq (variance) and, for n = 2, 3, qt cover the parameter with probability 1-alpha. Hotelling's statistic of a sample of n > K vectors from rmvnorm has the F law with K and n-K degrees, and pf is its distribution function. s^2 is n/(n-1) var, with Armadillo var itself.", "quantifier": "all mu, all sigma > 0, all sample sizes >= 2, all u and alpha, all K and positive definite covariances, every engine whose draws are fair and independent, every matrix library; exact arithmetic", "why_tests_cant": "The law of a statistic over all states of the engine, for every sample size and parameter: simulation only bounds the error of a rejection rate at the levels and sizes tried.", "anchors": ["include/stats_incl/rand/rnorm.ipp", "include/stats_incl/rand/rmvnorm.ipp", "include/stats_incl/misc/matrix_ops/mean.hpp", "include/stats_incl/misc/matrix_ops/var.hpp", "include/stats_incl/prob/pnorm.ipp", "include/stats_incl/prob/pt.ipp", "include/stats_incl/prob/pchisq.ipp", "include/stats_incl/prob/pf.ipp", "include/stats_incl/quant/qnorm.ipp", "include/stats_incl/quant/qchisq.ipp", "include/stats_incl/quant/qt.ipp"]}
{"id": "C63", "title": "Accuracy of the iterated Student-t quantile in the tail and for many degrees of freedom", "statement": "For every number of degrees of freedom from 1 on, the relative error of qt(p, dof) stays below 1e-50 for all small enough p. For every fixed p in (0,1), on either side of 1/2, both the value qt(p, dof) and its probability are exact up to an error of the order of dof^-4. The number the central branch computes before exponentiating is exact one order further, and the coefficient d of the tail branch has a relative error below 4/(dof-1/2)^6 for every dof >= 2. The number from which the tail branch starts its refinement has the requested probability up to that factor and a relative error of order p^(8/dof).", "quantifier": "all real dof >= 1 and all sufficiently small p; all p in (0,1) and all sufficiently large dof; exact arithmetic", "why_tests_cant": "Asymptotic claims about infinitely many arguments and parameters; a wrong coefficient of the expansion changes the values by less than the tolerance a test would use.", "anchors": ["include/stats_incl/quant/qt.ipp:39-280"]}
{"id": "C64", "title": "The stopping test of qinvgauss compares floating-point absolute values", "statement": "The result of qinvgauss does not depend on which declaration of the unqualified name abs the included headers provide: the loop stops when the floating-point absolute value of the residual is below the smallest positive normal number.", "quantifier": "all probabilities and parameters, all arithmetics, both declarations that compile", "why_tests_cant": "A test runs with one set of headers and sees one overload; whether the other one would be picked, and what it would do for all arguments, needs a model of the name lookup.", "anchors": ["include/stats_incl/quant/qinvgauss.ipp:48-76", "include/stats_incl/misc/statslib_options.hpp:52-65"]}
{"id": "C65", "title": "Blaze matrices filled by several threads", "statement": "When Blaze divides the assignment of a blaze::map expression among threads, a density matrix is filled with the values of the scalar function and without data races, and a random matrix is filled with successive draws from the engine without data races.", "quantifier": "all scalar functions and generators, all matrix sizes, all divisions of the elements among threads, all interleavings", "why_tests_cant": "Races show only under particular schedules, above Blaze's size threshold, in builds with threads.", "anchors": ["include/stats_incl/misc/internal_fns/statslib_defs.hpp:178-183", "include/stats_incl/misc/internal_fns/statslib_defs.hpp:228-234"]}
{"id": "C66", "title": "Conjugate priors: prior density times likelihood is a multiple of the posterior density", "statement": "For the classical conjugate pairs, the prior density times the densities of a sample, both as computed by the library, is a constant (not depending on the parameter) times the density of the posterior with the textbook parameters, in plain and in log form: gamma prior with Poisson, exponential, gamma, inverse gamma and inverse Gaussian observations; inverse gamma prior with normal, log-normal, exponential, gamma, Laplace and Weibull observations; beta prior with binomial, Bernoulli and Rademacher observations; normal prior with normal and log-normal observations; Wishart, inverse Wishart and normal priors with multivariate normal observations.", "quantifier": "all valid prior parameters, all finite samples of any length in the support, all values of the parameter; exact arithmetic", "why_tests_cant": "Quantifies over samples of every length and over continuous parameters, and ties together the parametrisations (rate or scale, standard deviation or variance, failures or trials) of pairs of functions which tests check one by one.", "anchors": ["include/stats_incl/dens/dgamma.ipp:39-66", "include/stats_incl/dens/dinvgamma.ipp:39-66", "include/stats_incl/dens/dbeta.ipp:39-72", "include/stats_incl/dens/dnorm.ipp:39-66", "include/stats_incl/dens/dinvwish.ipp:39-70", "include/stats_incl/dens/dwish.ipp:39-70", "include/stats_incl/dens/dmvnorm.ipp:25-51", "include/stats_incl/misc/sanity_checks/gamma.hpp:31-53"]}
{"id": "C67", "title": "Mixtures and convolutions of the coded densities", "statement": "Integrating the library's density of an observation against the library's density of its parameter gives the library's density of the mixed distribution: a normal mean with a normal distribution (normal), a normal variance with an inverse gamma or scaled inverse chi-squared distribution (Student's t), a normal variance with an exponential distribution (Laplace), an exponential rate with a gamma distribution and an inverse gamma rate with a gamma distribution (F), a Poisson number of Bernoulli trials (Poisson). Convolving two normal, gamma (equal scale), chi-squared, Poisson or binomial (equal probability) densities gives the density of the sum.", "quantifier": "all points, all valid parameters; integrals over the whole parameter space and sums over all integers; exact arithmetic", "why_tests_cant": "The claims contain improper integrals and infinite sums over the parameter; quadrature in a test sees neither integrability nor exact equality, and only at sampled parameters.", "anchors": ["include/stats_incl/dens/dnorm.ipp:39-86", "include/stats_incl/dens/dinvgamma.ipp:39-96", "include/stats_incl/dens/dt.ipp:36-110", "include/stats_incl/dens/dlaplace.ipp:36-94", "include/stats_incl/dens/df.ipp:36-148", "include/stats_incl/dens/dpois.ipp:34-71", "include/stats_incl/dens/dbinom.ipp:34-92"]}
{"id": "C68", "title": "Draws with a drawn parameter", "statement": "A program that draws a parameter from one generator and passes the result to another generator, using the engine left behind, gets a number whose law is the mixture, and for the classical pairs the law of a third distribution: rnorm as mean of rnorm or rlnorm (normal, log-normal with the variances added), rinvgamma as variance or rchisq as precision of rnorm (Student's t), rexp as variance of rnorm (Laplace), rgamma as rate of rexp (scaled F), rbeta as probability of rbinom (beta-binomial), rpois or rbinom as number of trials of rbinom (Poisson, binomial with the product of the probabilities), rbern as the choice between two rnorm draws (mixture of the densities). The engine left behind is independent of the result.", "quantifier": "all valid parameters, all events, all fair engines; every value of nextafter(0,1) up to 1/30 (the error in the probability of any event is a stated multiple of it); exact arithmetic otherwise", "why_tests_cant": "The claim is about the joint law of two draws with a random parameter, for every event; a test can only compare histograms at a few parameters, and cannot see dependence between the parameter draw and the second draw.", "anchors": ["include/stats_incl/rand/rnorm.ipp:34-45", "include/stats_incl/rand/rlnorm.ipp:34-40", "include/stats_incl/rand/rinvgamma.ipp:31-37", "include/stats_incl/rand/rchisq.ipp:34-40", "include/stats_incl/rand/rexp.ipp:34-40", "include/stats_incl/rand/rgamma.ipp:35-76", "include/stats_incl/rand/rbeta.ipp:34-46", "include/stats_incl/rand/rbinom.ipp:31-47", "include/stats_incl/rand/rpois.ipp:34-40", "include/stats_incl/rand/rbern.ipp:31-46"]}
{"id": "C69", "title": "Likelihoods built from the densities are greatest at the textbook estimates", "statement": "For a sample, the product of the plain forms and the sum of the log forms of a density, as functions of its parameters, have exactly one maximum among the parameters the function accepts, and it is at the estimate computed with the library's own helpers: mean and root of var for dnorm (of the logarithms for dlnorm), 1/mean for dexp, mean/shape for dgamma, shape/mean(1/x) for dinvgamma, (mean x^shape)^(1/shape) for dweibull, sum_absdiff/n for dlaplace, mean and 1/(mean(1/x)-1/mean) for dinvgauss, mean for dpois and dbern, mean/n for dbinom, (1+mean)/2 for dradem. With Armadillo, whose var divides by n-1, the estimate for dnorm is never the maximum.", "quantifier": "all samples of any length inside the support for which the maximum exists (not all equal, or not all zero), all other parameters of the family, both forms", "why_tests_cant": "That no other parameter does better is a statement about a continuum of parameters for every sample; a test compares a few.", "anchors": ["include/stats_incl/dens/dnorm.ipp", "include/stats_incl/dens/dinvgauss.ipp", "include/stats_incl/dens/dgamma.ipp", "include/stats_incl/dens/dpois.ipp", "include/stats_incl/misc/matrix_ops/mean.hpp", "include/stats_incl/misc/matrix_ops/var.hpp", "include/stats_incl/misc/matrix_ops/sum_absdiff.hpp"]}
{"id": "C70", "title": "Monotone likelihood ratios", "statement": "For two members of a family, the ratio of the density at the larger parameter to the density at the smaller one never decreases in x, in both forms: dnorm, dlnorm, dlaplace, dlogis in mu; dexp in 1/rate; dgamma in shape and scale together; dchisq in dof; dbeta in (a, -b); dinvgamma in (-shape, rate); dinvgauss in mu; dweibull in scale; and the probability functions dbern, dradem, dbinom in p and dpois in rate. dcauchy does not have the property.", "quantifier": "all pairs of valid parameters ordered as stated, all pairs of points of the support (scales at least the library's epsilon where the code replaces smaller ones); exact arithmetic", "why_tests_cant": "An inequality between four density values at two arbitrary points and two arbitrary parameters; a test samples a finite grid of a four-dimensional space.", "anchors": ["include/stats_incl/dens/dnorm.ipp", "include/stats_incl/dens/dlnorm.ipp", "include/stats_incl/dens/dlaplace.ipp", "include/stats_incl/dens/dlogis.ipp", "include/stats_incl/dens/dexp.ipp", "include/stats_incl/dens/dgamma.ipp", "include/stats_incl/dens/dchisq.ipp", "include/stats_incl/dens/dbeta.ipp", "include/stats_incl/dens/dinvgamma.ipp", "include/stats_incl/dens/dinvgauss.ipp", "include/stats_incl/dens/dweibull.ipp", "include/stats_incl/dens/dbern.ipp", "include/stats_incl/dens/dbinom.ipp", "include/stats_incl/dens/dpois.ipp"]}
{"id": "C71", "title": "Log-concave densities", "statement": "The log form lies above its chords, and the plain form above the geometric means of its values: dnorm, dlaplace, dlogis, dexp, dunif for all valid parameters, dgamma for shape at least 1, dchisq for dof at least 2, dbeta for both parameters at least 1, dweibull for shape at least 1; for counts p(x-1) p(x+1) <= p(x)^2 for dpois and dbinom. dgamma with shape 1/2 is not log-concave, so the restriction is needed.", "quantifier": "all valid parameters as stated, all pairs of points of the support and all weights, all integers for counts; exact arithmetic", "why_tests_cant": "A statement about every chord of the graph for every parameter.", "anchors": ["include/stats_incl/dens/dnorm.ipp", "include/stats_incl/dens/dlaplace.ipp", "include/stats_incl/dens/dlogis.ipp", "include/stats_incl/dens/dexp.ipp", "include/stats_incl/dens/dunif.ipp", "include/stats_incl/dens/dgamma.ipp", "include/stats_incl/dens/dchisq.ipp", "include/stats_incl/dens/dbeta.ipp", "include/stats_incl/dens/dweibull.ipp", "include/stats_incl/dens/dpois.ipp", "include/stats_incl/dens/dbinom.ipp"]}
{"id": "C72", "title": "Hazard rates", "statement": "With d and p of the same distribution: a larger parameter in the order of C70 never has a larger hazard rate d/(1-p) nor a smaller reversed rate d/p; where the density is log-concave (C71) the hazard rate never decreases and the reversed rate never increases in x. Explicitly, d/(1-p) is rate for the exponential distribution, and 1-pexp(x+y) = (1-pexp(x))(1-pexp(y)); shape/scale (x/scale)^(shape-1) for Weibull, 1/(b-x) for uniform, p/sigma for logistic, 1/sigma above mu for Laplace.", "quantifier": "all valid parameters ordered as in C70 or restricted as in C71, all points (pairs of points) of the support outside the zones the code cuts off; exact arithmetic", "why_tests_cant": "Relates two separately coded functions at arbitrary points and parameters by inequalities; a test samples a grid.", "anchors": ["include/stats_incl/dens/dnorm.ipp", "include/stats_incl/dens/dlnorm.ipp", "include/stats_incl/dens/dlaplace.ipp", "include/stats_incl/dens/dlogis.ipp", "include/stats_incl/dens/dexp.ipp", "include/stats_incl/dens/dunif.ipp", "include/stats_incl/dens/dgamma.ipp", "include/stats_incl/dens/dchisq.ipp", "include/stats_incl/dens/dbeta.ipp", "include/stats_incl/dens/dinvgamma.ipp", "include/stats_incl/dens/dinvgauss.ipp", "include/stats_incl/dens/dweibull.ipp", "include/stats_incl/prob/pnorm.ipp", "include/stats_incl/prob/plnorm.ipp", "include/stats_incl/prob/plaplace.ipp", "include/stats_incl/prob/plogis.ipp", "include/stats_incl/prob/pexp.ipp", "include/stats_incl/prob/punif.ipp", "include/stats_incl/prob/pgamma.ipp", "include/stats_incl/prob/pchisq.ipp", "include/stats_incl/prob/pbeta.ipp", "include/stats_incl/prob/pinvgamma.ipp", "include/stats_incl/prob/pinvgauss.ipp", "include/stats_incl/prob/pweibull.ipp"]}
{"id": "C73", "title": "Relative entropy", "statement": "The expected difference of the log forms of two members of a family, under the first, is the relative entropy of the textbooks (for instance log(s2/s1) + (s1^2 + (m1-m2)^2)/(2 s2^2) - 1/2 for two normal distributions). It is never negative and is 0 only if the two densities agree (almost everywhere; everywhere for counts).", "quantifier": "all pairs of valid parameters (normal, lognormal, exponential, Poisson; binomial with the same number of trials, Bernoulli, Rademacher with probabilities strictly between 0 and 1), with a common shape (gamma, inverse gamma, Weibull), a common lambda (inverse Gaussian), a common mu (Laplace), or nested intervals (uniform); exact arithmetic", "why_tests_cant": "An integral over the whole line (a sum over all counts) of a combination of two calls in log and plain form; a test evaluates single points.", "anchors": ["include/stats_incl/dens/dnorm.ipp", "include/stats_incl/dens/dlnorm.ipp", "include/stats_incl/dens/dexp.ipp", "include/stats_incl/dens/dunif.ipp", "include/stats_incl/dens/dgamma.ipp", "include/stats_incl/dens/dinvgamma.ipp", "include/stats_incl/dens/dweibull.ipp", "include/stats_incl/dens/dinvgauss.ipp", "include/stats_incl/dens/dlaplace.ipp", "include/stats_incl/dens/dpois.ipp", "include/stats_incl/dens/dbinom.ipp", "include/stats_incl/dens/dbern.ipp", "include/stats_incl/dens/dradem.ipp"]}

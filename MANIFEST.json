{
 "claims": [
  {
   "property": "C01",
   "status": "proved",
   "theorems": [
    "Stats.C01_dnorm",
    "Stats.C01_dlnorm",
    "Stats.C01_dcauchy",
    "Stats.C01_dlaplace",
    "Stats.C01_dlogis",
    "Stats.C01_dunif",
    "Stats.C01_dexp",
    "Stats.C01_dbeta",
    "Stats.C01_dgamma",
    "Stats.C01_dinvgamma",
    "Stats.C01_dinvgauss",
    "Stats.C01_dchisq",
    "Stats.C01_df",
    "Stats.C01_dt",
    "Stats.C01_dweibull",
    "Stats.C01_dbern",
    "Stats.C01_dradem",
    "Stats.C01_dbinom",
    "Stats.C01_dpois",
    "Stats.C01_pnorm",
    "Stats.C01_plnorm",
    "Stats.C01_pcauchy",
    "Stats.C01_plaplace",
    "Stats.C01_plogis",
    "Stats.C01_punif",
    "Stats.C01_pexp",
    "Stats.C01_pbeta",
    "Stats.C01_pgamma",
    "Stats.C01_pinvgamma",
    "Stats.C01_pinvgauss",
    "Stats.C01_pchisq",
    "Stats.C01_pf",
    "Stats.C01_pt",
    "Stats.C01_pweibull",
    "Stats.C01_pbern",
    "Stats.C01_pradem",
    "Stats.C01_pbinom",
    "Stats.C01_ppois",
    "Stats.C01_qnorm",
    "Stats.C01_qlnorm",
    "Stats.C01_qcauchy",
    "Stats.C01_qlaplace",
    "Stats.C01_qlogis",
    "Stats.C01_qunif",
    "Stats.C01_qexp",
    "Stats.C01_qbeta",
    "Stats.C01_qgamma",
    "Stats.C01_qinvgamma",
    "Stats.C01_qinvgauss",
    "Stats.C01_qchisq",
    "Stats.C01_qf",
    "Stats.C01_qt",
    "Stats.C01_qweibull",
    "Stats.C01_qbern",
    "Stats.C01_qradem",
    "Stats.C01_qbinom",
    "Stats.C01_qpois"
   ],
   "note": "All scalar d/p/q functions, for every Lib (every rounding rule and library)."
  },
  {
   "property": "C02",
   "status": "proved",
   "theorems": [
    "Stats.C02_dnorm",
    "Stats.C02_dlnorm",
    "Stats.C02_dcauchy",
    "Stats.C02_dlaplace",
    "Stats.C02_dlogis",
    "Stats.C02_dunif",
    "Stats.C02_dexp",
    "Stats.C02_dbeta",
    "Stats.C02_dgamma",
    "Stats.C02_dinvgamma",
    "Stats.C02_dinvgauss",
    "Stats.C02_dchisq",
    "Stats.C02_df",
    "Stats.C02_dt",
    "Stats.C02_dweibull",
    "Stats.C02_pnorm",
    "Stats.C02_plnorm",
    "Stats.C02_pcauchy",
    "Stats.C02_plaplace",
    "Stats.C02_plogis",
    "Stats.C02_punif",
    "Stats.C02_pexp",
    "Stats.C02_pbeta",
    "Stats.C02_pgamma",
    "Stats.C02_pinvgamma",
    "Stats.C02_pinvgauss",
    "Stats.C02_pchisq",
    "Stats.C02_pf",
    "Stats.C02_pt",
    "Stats.C02_pweibull",
    "Stats.C02_qnorm",
    "Stats.C02_qlnorm",
    "Stats.C02_qcauchy",
    "Stats.C02_qlaplace",
    "Stats.C02_qlogis",
    "Stats.C02_qunif",
    "Stats.C02_qexp",
    "Stats.C02_qbeta",
    "Stats.C02_qgamma",
    "Stats.C02_qinvgamma",
    "Stats.C02_qinvgauss",
    "Stats.C02_qchisq",
    "Stats.C02_qf",
    "Stats.C02_qt",
    "Stats.C02_qweibull",
    "Stats.C02_qbern",
    "Stats.C02_qradem",
    "Stats.C02_qbinom",
    "Stats.C02_qpois"
   ],
   "note": "All continuous d/p functions at NaN and all q functions at NaN, for every Lib."
  },
  {
   "property": "C03",
   "status": "proved",
   "theorems": [
    "Stats.C03_qnorm",
    "Stats.C03_qlnorm",
    "Stats.C03_qcauchy",
    "Stats.C03_qlaplace",
    "Stats.C03_qlogis",
    "Stats.C03_qunif",
    "Stats.C03_qexp",
    "Stats.C03_qbeta",
    "Stats.C03_qgamma",
    "Stats.C03_qinvgamma",
    "Stats.C03_qinvgauss",
    "Stats.C03_qchisq",
    "Stats.C03_qf",
    "Stats.C03_qt",
    "Stats.C03_qweibull",
    "Stats.C03_qbern",
    "Stats.C03_qradem",
    "Stats.C03_qbinom",
    "Stats.C03_qpois"
   ],
   "note": "All q functions, for every Lib."
  },
  {
   "property": "C04",
   "status": "partial",
   "theorems": [
    "Stats.C04_pnorm",
    "Stats.C04_plnorm",
    "Stats.C04_plaplace",
    "Stats.C04_pcauchy_partial",
    "Stats.C04_pbeta",
    "Stats.C04_pgamma_partial",
    "Stats.C04_pweibull_partial",
    "Stats.C04_pbern",
    "Stats.C04_pradem",
    "Stats.C04_pexp",
    "Stats.C04_gamma_violated",
    "Stats.C04_weibull_violated",
    "Stats.C04_f_violated",
    "Stats.C04_t_violated",
    "Stats.C04_tiny_valid",
    "Stats.C04_pcauchy_violated",
    "Stats.C04_dcauchy_violated",
    "Stats.C04_dlogis_violated",
    "Stats.C04_dweibull_violated",
    "Stats.C04_pinvgamma_zero_violated",
    "Stats.C04_pinvgamma_violated",
    "Stats.C04_punif",
    "Stats.C04_plogis",
    "Stats.C04_pinvgamma_partial",
    "Stats.C04_pchisq",
    "Stats.C04_pt_partial",
    "Stats.C04_pf_partial",
    "Stats.C04_pinvgauss",
    "Stats.C04_pbinom",
    "Stats.C04_ppois",
    "Stats.C04_dnorm",
    "Stats.C04_dlnorm",
    "Stats.C04_dunif",
    "Stats.C04_dexp",
    "Stats.C04_dcauchy_partial",
    "Stats.C04_dlaplace",
    "Stats.C04_dlogis_partial",
    "Stats.C04_dbeta",
    "Stats.C04_dgamma_partial",
    "Stats.C04_dinvgamma",
    "Stats.C04_dinvgauss",
    "Stats.C04_dchisq",
    "Stats.C04_df_partial",
    "Stats.C04_dt_partial",
    "Stats.C04_dweibull_partial",
    "Stats.C04_dbern",
    "Stats.C04_dradem",
    "Stats.C04_dbinom",
    "Stats.C04_dpois",
    "Stats.ExamplesC04.C04_punif_double_violated",
    "Stats.ExamplesC04.C04_plogis_double_violated",
    "Stats.ExamplesC04.C04_dlogis_double_violated",
    "Stats.ExamplesC04.C04_pf_double_violated",
    "Stats.ExamplesC04.C04_df_double_violated",
    "Stats.ExamplesC04.C04_pinvgauss_double_violated",
    "Stats.ExamplesC04.C04_dinvgauss_double_violated"
   ],
   "note": "Proved for every library with monotone functions (pnorm, plnorm, plaplace, pexp, pbeta, pbern, pradem and, for admissible parameters, pcauchy, pgamma, pweibull) and in exact arithmetic for the rest. Violations proved: parameters in (0, eps) rejected (gamma, weibull, f, t), scale 0 (pcauchy, dcauchy, dlogis), dweibull(0,1,s), pinvgamma(0,k,0) and rates above 1/eps, and overflow in binary64 (punif, plogis, dlogis, pf, df, pinvgauss(1,1,1024), dinvgauss(1,2^600,1))."
  },
  {
   "property": "C05",
   "status": "partial",
   "theorems": [
    "Stats.C05_dnorm",
    "Stats.C05_dcauchy",
    "Stats.C05_dlaplace",
    "Stats.C05_dlogis",
    "Stats.C05_dt",
    "Stats.C05_dlnorm",
    "Stats.C05_dlnorm_zero",
    "Stats.C05_dunif",
    "Stats.C05_dexp_violated",
    "Stats.C05_dexp_partial",
    "Stats.C05_dbeta",
    "Stats.C05_dgamma",
    "Stats.C05_dinvgamma_violated",
    "Stats.C05_dinvgamma_partial",
    "Stats.C05_dinvgauss",
    "Stats.C05_dchisq",
    "Stats.C05_df_violated",
    "Stats.C05_df_partial",
    "Stats.C05_dweibull",
    "Stats.C05_dbern",
    "Stats.C05_dradem",
    "Stats.C05_dbinom",
    "Stats.C05_dpois",
    "Stats.C05_dunif_infinite_violated"
   ],
   "note": "The code violates the property for dexp (log form at +inf), dinvgamma (shape 0), df (at +inf) and dunif (infinite bound): *_violated; *_partial covers the rest. All other densities fully proved."
  },
  {
   "property": "C06",
   "status": "partial",
   "theorems": [
    "Stats.C06_dnorm",
    "Stats.C06_dlnorm",
    "Stats.C06_dunif",
    "Stats.C06_dexp",
    "Stats.C06_dcauchy",
    "Stats.C06_dlaplace",
    "Stats.C06_dlogis",
    "Stats.C06_dbeta",
    "Stats.C06_dgamma",
    "Stats.C06_dinvgamma",
    "Stats.C06_dinvgauss",
    "Stats.C06_dchisq",
    "Stats.C06_dt",
    "Stats.C06_dweibull",
    "Stats.C06_dbern",
    "Stats.C06_dradem",
    "Stats.C06_dbinom",
    "Stats.C06_dpois",
    "Stats.C06_df_partial",
    "Stats.ExamplesC06F.C06_df_violated"
   ],
   "note": "Every density, every Lib, all arguments, except df: non-negative in exact arithmetic (C06_df_partial), negative in binary64 at (7.95e20, 3, 2) (C06_df_violated)."
  },
  {
   "property": "C07",
   "status": "partial",
   "theorems": [
    "Stats.C07_pnorm",
    "Stats.C07_plnorm",
    "Stats.C07_punif",
    "Stats.C07_pexp",
    "Stats.C07_pcauchy",
    "Stats.C07_plaplace",
    "Stats.C07_plogis",
    "Stats.C07_pbeta",
    "Stats.C07_pgamma",
    "Stats.C07_pinvgamma",
    "Stats.C07_pchisq",
    "Stats.C07_pt",
    "Stats.C07_pweibull",
    "Stats.C07_pinvgauss",
    "Stats.C07_pbern",
    "Stats.C07_pradem",
    "Stats.C07_pbinom",
    "Stats.C07_ppois",
    "Stats.C07_pf_partial",
    "Stats.C07_pf_violated",
    "Stats.C07_dnorm",
    "Stats.C07_dcauchy",
    "Stats.C07_dlaplace",
    "Stats.C07_dlogis",
    "Stats.C07_dbeta",
    "Stats.C07_dgamma",
    "Stats.C07_dinvgamma",
    "Stats.C07_dinvgauss",
    "Stats.C07_dchisq",
    "Stats.C07_dt",
    "Stats.C07_dweibull",
    "Stats.C07_dbern",
    "Stats.C07_dradem",
    "Stats.C07_dbinom",
    "Stats.C07_dpois",
    "Stats.C07_dlnorm",
    "Stats.C07_dunif_partial",
    "Stats.C07_dunif_violated",
    "Stats.C07_dexp_partial",
    "Stats.C07_dexp_violated",
    "Stats.C07_df"
   ],
   "note": "Distribution functions for every Lib and all arguments, densities in exact arithmetic and all arguments; the code violates the property for pf with infinite df1, dexp at +inf and dunif with an infinite end point (*_violated)."
  },
  {
   "property": "C08",
   "status": "partial",
   "theorems": [
    "Stats.C08_dnorm",
    "Stats.C08_dlnorm",
    "Stats.C08_dunif",
    "Stats.C08_dexp",
    "Stats.C08_dcauchy",
    "Stats.C08_dlaplace",
    "Stats.C08_dlogis",
    "Stats.C08_dbeta",
    "Stats.C08_dgamma",
    "Stats.C08_dinvgamma",
    "Stats.C08_dinvgauss",
    "Stats.C08_dchisq",
    "Stats.C08_df",
    "Stats.C08_dt",
    "Stats.C08_dweibull",
    "Stats.C08_dbern",
    "Stats.C08_dradem",
    "Stats.C08_dbinom",
    "Stats.C08_dpois",
    "Stats.C08_dbeta_zero",
    "Stats.C08_dbeta_one",
    "Stats.C08_dgamma_zero",
    "Stats.C08_dchisq_zero",
    "Stats.C08_df_zero",
    "Stats.C08_dweibull_zero_violated",
    "Stats.C08_dweibull_zero_partial",
    "Stats.C08_dinvgamma_zero",
    "Stats.C08_dinvgauss_zero",
    "Stats.C08_dlnorm_zero"
   ],
   "note": "Every density and mass function equals its textbook formula in plain and log form in exact arithmetic, with the end-point values of the support; dweibull(0, 1, scale) is NaN instead of 1/scale (C08_dweibull_zero_violated)."
  },
  {
   "property": "C09",
   "status": "partial",
   "theorems": [
    "Stats.C09_pnorm",
    "Stats.C09_plnorm",
    "Stats.C09_punif",
    "Stats.C09_pexp",
    "Stats.C09_pcauchy",
    "Stats.C09_plaplace",
    "Stats.C09_plogis",
    "Stats.C09_pbeta",
    "Stats.C09_pgamma",
    "Stats.C09_pinvgamma",
    "Stats.C09_pchisq",
    "Stats.C09_pf_plain",
    "Stats.C09_pf_log_partial",
    "Stats.C09_pf_violated",
    "Stats.C09_pt_partial",
    "Stats.C09_pweibull",
    "Stats.C09_pbern",
    "Stats.C09_pradem",
    "Stats.C09_ppois_partial",
    "Stats.C09Pt.C09_pt_double",
    "Stats.C09Pt.C09_pt_double_inf",
    "Stats.C09_pbinom",
    "Stats.C09_ppois",
    "Stats.C09_pinvgauss",
    "Stats.C09_pt",
    "Stats.ExamplesC49.C09_pinvgauss_double_violated",
    "Stats.ExamplesC49.C09_ppois_double_violated",
    "Stats.ExamplesC49.C09_pbinom_double_violated"
   ],
   "note": "All distribution functions, all arguments: most for every Lib, pbinom/ppois/pinvgauss/pt in exact arithmetic, pt also in binary64 for every double (C09B: sqrt of the square of a double is not below it); in binary64 pbinom, ppois and pinvgauss exceed 1 (C49F, C49G); pf in log form with infinite df1 violates the property."
  },
  {
   "property": "C10",
   "status": "partial",
   "theorems": [
    "Stats.C10_pnorm",
    "Stats.C10_plnorm",
    "Stats.C10_punif",
    "Stats.C10_pexp_partial",
    "Stats.C10_pexp_violated",
    "Stats.C10_pcauchy_partial",
    "Stats.C10_pcauchy_violated",
    "Stats.C10_plaplace",
    "Stats.C10_plogis",
    "Stats.C10_pbeta",
    "Stats.C10_pgamma",
    "Stats.C10_pinvgamma_partial",
    "Stats.C10_pchisq",
    "Stats.C10_pweibull",
    "Stats.C10_pbern",
    "Stats.C10_pradem",
    "Stats.C10_punif_exact",
    "Stats.C10_plogis_exact",
    "Stats.C10_pinvgamma_exact_partial",
    "Stats.C10_pinvgamma_violated",
    "Stats.C10_pchisq_exact",
    "Stats.C10_pt",
    "Stats.C10_pf",
    "Stats.C10_pinvgauss",
    "Stats.C10_pinvgauss_degenerate",
    "Stats.C10_pbinom",
    "Stats.C10_ppois",
    "Stats.C10_pt_one_rounded",
    "Stats.C10_pt_inf_rounded",
    "Stats.C10_pf_inf_rounded",
    "Stats.C10Double.C10_pt_two_double_overflow",
    "Stats.C10Double.C10_pt_two_double_violated",
    "Stats.C10Double.C10_pf_double_violated",
    "Stats.ExamplesC49.C10_pinvgauss_double_violated",
    "Stats.ExamplesC49.C10_ppois_double_violated",
    "Stats.ExamplesC49.C10_pbinom_double_violated"
   ],
   "note": "pexp (rate 0), pcauchy (scale 0) and pinvgamma (rate > 1/eps) violate the property at degenerate parameters; everything else proved, for every monotone Lib or (pt, pf, pinvgauss, pbinom, ppois) in exact arithmetic; pt with 1 or infinitely many and pf with infinite second degrees of freedom for every monotone Lib (C10B). In binary64 pbinom, ppois, pinvgauss (C49F, C49G), pt with 2 degrees of freedom (1/2 once x*x overflows) and pf (C10B) are not monotone."
  },
  {
   "property": "C11",
   "status": "partial",
   "theorems": [
    "Stats.C11_pnorm",
    "Stats.C11_plnorm",
    "Stats.C11_punif",
    "Stats.C11_pexp_violated",
    "Stats.C11_pexp_partial",
    "Stats.C11_pcauchy",
    "Stats.C11_plaplace",
    "Stats.C11_plogis",
    "Stats.C11_pbeta",
    "Stats.C11_pgamma",
    "Stats.C11_pinvgamma_violated",
    "Stats.C11_pinvgamma_partial",
    "Stats.C11_pchisq",
    "Stats.C11_pf",
    "Stats.C11_pt",
    "Stats.C11_pweibull",
    "Stats.C11_pinvgauss"
   ],
   "note": "pexp with rate 0 and pinvgamma with rate > 1/eps violate the property; the rest is proved for every Lib."
  },
  {
   "property": "C12",
   "status": "proved",
   "theorems": [
    "Stats.C12_dnorm",
    "Stats.C12_dlnorm",
    "Stats.C12_dcauchy",
    "Stats.C12_dlaplace",
    "Stats.C12_dlogis",
    "Stats.C12_dunif",
    "Stats.C12_dexp",
    "Stats.C12_dbeta",
    "Stats.C12_dgamma",
    "Stats.C12_dinvgamma",
    "Stats.C12_dchisq",
    "Stats.C12_df",
    "Stats.C12_dt",
    "Stats.C12_dweibull",
    "Stats.C12_dinvgauss"
   ],
   "note": "All 15 continuous densities, exact arithmetic."
  },
  {
   "property": "C13",
   "status": "partial",
   "theorems": [
    "Stats.C13_pnorm",
    "Stats.C13_plnorm",
    "Stats.C13_pcauchy",
    "Stats.C13_plaplace",
    "Stats.C13_plogis",
    "Stats.C13_punif",
    "Stats.C13_pexp",
    "Stats.C13_pbeta",
    "Stats.C13_pgamma",
    "Stats.C13_pinvgamma_partial",
    "Stats.C13_pchisq",
    "Stats.C13_pf",
    "Stats.C13_pt",
    "Stats.C13_pweibull",
    "Stats.C13_pinvgauss",
    "Stats.C13_pinvgamma_violated"
   ],
   "note": "All 15 continuous distribution functions, exact arithmetic, at every finite point outside the code's cut-off zone 0 < x < eps (lnorm, gamma, chisq, f, weibull; 1/x < eps for invgamma) where the code returns 0. Rates of invgamma above 1/eps: pinvgamma is NaN on the support (C13_pinvgamma_violated)."
  },
  {
   "property": "C14",
   "status": "partial",
   "theorems": [
    "Stats.C14_norm",
    "Stats.C14_lnorm_partial",
    "Stats.C14_lnorm_violated",
    "Stats.C14_unif",
    "Stats.C14_exp",
    "Stats.C14_cauchy",
    "Stats.C14_laplace",
    "Stats.C14_logis",
    "Stats.C14_beta",
    "Stats.C14_gamma_partial",
    "Stats.C14_gamma_violated",
    "Stats.C14_chisq_partial",
    "Stats.C14_chisq_violated",
    "Stats.C14_invgamma_partial",
    "Stats.C14_invgamma_violated",
    "Stats.C14_f_partial",
    "Stats.C14_f_violated",
    "Stats.C14_weibull_partial",
    "Stats.C14_weibull_violated"
   ],
   "note": "Exact arithmetic, thirteen continuous families with closed quantiles: qX(pX(x)) = x on the support, except inside the library's own cut-off zones (plnorm, pgamma, pchisq, pf, pweibull treat x < eps as 0, pinvgamma 1/x-type cut): those zones are proved violations and the complement is the _partial theorem. qinvgauss and general-dof qt are iterations, see C21 and C42."
  },
  {
   "property": "C15",
   "status": "partial",
   "theorems": [
    "Stats.C15_norm",
    "Stats.C15_lnorm_partial",
    "Stats.C15_lnorm_violated",
    "Stats.C15_unif",
    "Stats.C15_exp",
    "Stats.C15_cauchy",
    "Stats.C15_laplace",
    "Stats.C15_logis",
    "Stats.C15_beta",
    "Stats.C15_gamma_partial",
    "Stats.C15_gamma_violated",
    "Stats.C15_chisq_partial",
    "Stats.C15_chisq_violated",
    "Stats.C15_invgamma_partial",
    "Stats.C15_invgamma_violated",
    "Stats.C15_f_partial",
    "Stats.C15_f_violated",
    "Stats.C15_weibull_partial",
    "Stats.C15_weibull_violated",
    "Stats.C15Double.C15_qinvgauss_double_violated",
    "Stats.C15_qinvgauss_violated"
   ],
   "note": "Exact arithmetic: pX(qX(u)) = u for all u in (0,1); for the families with a cut-off only for u above the cut-off value, violation proved below it. For the inverse Gaussian the claim is proved violated at every parameter (100 Newton steps do not reach the far tails); C21_qinvgauss_error bounds the error instead. Student-t for dof 1, 2 is in C42. In binary64 qinvgauss(p,mu,1) is NaN at every double p in (0,1) for mu a power of two from 2^30 to 2^250, because the mode is computed as 0 (C15_qinvgauss_double_violated)."
  },
  {
   "property": "C16",
   "status": "partial",
   "theorems": [
    "Stats.C16_norm",
    "Stats.C16_lnorm",
    "Stats.C16_unif",
    "Stats.C16_exp",
    "Stats.C16_cauchy",
    "Stats.C16_laplace",
    "Stats.C16_logis",
    "Stats.C16_beta",
    "Stats.C16_gamma",
    "Stats.C16_chisq",
    "Stats.C16_invgamma",
    "Stats.C16_f",
    "Stats.C16_weibull",
    "Stats.C16_exp_rounded",
    "Stats.C16_logis_rounded",
    "Stats.C16_laplace_rounded",
    "Stats.C16_norm_rounded",
    "Stats.C16_lnorm_rounded",
    "Stats.C16_cauchy_rounded",
    "Stats.C16_unif_rounded_partial",
    "Stats.C16_gamma_rounded",
    "Stats.C16_chisq_rounded",
    "Stats.C16_invgamma_rounded_partial",
    "Stats.C16_beta_rounded",
    "Stats.C16_weibull_rounded",
    "Stats.C16_f_rounded",
    "Stats.C16_bern_rounded",
    "Stats.C16_radem_rounded",
    "Stats.C16_binom_rounded",
    "Stats.C16Double.C16_norm_double",
    "Stats.C16Double.C16_norm_violated",
    "Stats.C16Double.C16_unif_violated",
    "Stats.C16_qbern",
    "Stats.C16_qradem",
    "Stats.C16_qbinom",
    "Stats.C16_qpois_partial",
    "Stats.C16_qpois_violated",
    "Stats.C16_qt_one",
    "Stats.C16_qt_two",
    "Stats.C16Double.C16_unif_double",
    "Stats.C16Double.C16_unif_double_violated",
    "Stats.C16_qpois_small_rounded",
    "Stats.C16_qpois_rounded_partial",
    "Stats.C16_qpois_near_rounded_partial",
    "Stats.C16Double.C16_qpois_double",
    "Stats.C16Double.C16_qpois_double_partial",
    "Stats.C16Double.C16_qpois_near_double_partial",
    "Stats.C16Fall.C16_qpois_double_violated",
    "Stats.C16_qt_one_rounded",
    "Stats.C16_qt_inf_rounded",
    "Stats.C16QtDouble.C16_qt_two_double_violated",
    "Stats.C16_qinvgauss_partial"
   ],
   "note": "Exact arithmetic: monotone quantiles for thirteen continuous families, Bernoulli, Rademacher, binomial (whatever the search returns), Poisson below probability 1, and Student-t with 1 or 2 degrees of freedom. Inverse Gaussian: ends, and monotone for probabilities that differ by at least the stopping tolerance. With rounding: the thirteen families in every arithmetic whose library functions are monotone (binary64 included; hypotheses only that products such as sqrt2*sigma do not overflow; qinvgamma where 1-p is not rounded to 1), Bernoulli, Rademacher and binomial in every arithmetic. Proved violations: qpois at p=1 versus rate < eps, qt with 3 degrees of freedom (C42_qt_mono_violated), qunif and qnorm in binary64 when an intermediate result overflows. qpois with rounding: every arithmetic (binary64 included) for rates in [eps, 11); from rate 11 on the counts are in order up to one (C16_qpois_near_rounded_partial), and exactly when the search for the larger probability does not start beyond its target (C16_qpois_rounded_partial) or, in binary64, starts at 2^55 or beyond. Proved violation: in binary64 with rate 31684 the quantile of 2^-60 is 30219 and that of 7*2^-56 is 30218 (C16_qpois_double_violated). qt with rounding: every arithmetic for 1 degree of freedom and infinitely many (C16_qt_one_rounded, C16_qt_inf_rounded); with 2 it falls in binary64 between two neighbouring doubles (C16_qt_two_double_violated). Missing: qt with other degrees of freedom, and qinvgauss, with rounding."
  },
  {
   "property": "C17",
   "status": "proved",
   "theorems": [
    "Stats.C17_dbern",
    "Stats.C17_pbern",
    "Stats.C17_dradem",
    "Stats.C17_pradem",
    "Stats.C17_dbinom",
    "Stats.C17_pbinom",
    "Stats.C17_dpois",
    "Stats.C17_ppois"
   ],
   "note": "Bernoulli, Rademacher, binomial and Poisson: mass functions sum to 1 over all integers and distribution functions are running sums, exact arithmetic."
  },
  {
   "property": "C18",
   "status": "partial",
   "theorems": [
    "Stats.C18_qbern",
    "Stats.C18_qradem",
    "Stats.C18_qbinom_partial",
    "Stats.C18_qbinom_one_partial",
    "Stats.C18_qbinom_violated"
   ],
   "note": "qbern and qradem in full. qbinom in full except p = 1 with prob = 0, where the code returns n instead of 0 (proved violation)."
  },
  {
   "property": "C19",
   "status": "partial",
   "theorems": [
    "Stats.C16Fall.C19_qpois_double_violated",
    "Stats.C19_qpois_above_partial",
    "Stats.C19_qpois_partial",
    "Stats.C19_qpois_violated",
    "Stats.C19_qpois_eps_violated"
   ],
   "note": "The search keeps going while F(k) <= p, so it returns the smallest k with F(k) > p (proved for all rates >= eps and p < 1). That equals the generalised inverse except at attained probabilities, where it is one too large for every rate (proved violation); rates below eps always give 0 (proved violation). In binary64 the lower tail is wrong by more: C19_qpois_double_violated (rate 31684, p = 7*2^-56: the distribution function at the returned count is below p)."
  },
  {
   "property": "C20",
   "status": "partial",
   "theorems": [
    "Stats.C20_qbinom",
    "Stats.C20_qpois_inf_violated",
    "Stats.C20_qpois_inf_call_violated",
    "Stats.C20_qpois",
    "Stats.C20_qpois_double_partial",
    "Stats.C20_qpois_double_violated",
    "Stats.C20_qpois_double_tail_violated"
   ],
   "note": "qbinom: returns within n+1 steps inside {0..n}, for every library. qpois: terminates for every finite rate in exact arithmetic (normal starting point never overshoots), and in binary64 for every rate up to 2^63-2^35 and every probability below 1. With an infinite rate the loop never ends (proved violation). In binary64 a rate from 2^63 on makes the conversion of the starting point undefined (C20_qpois_double_violated), and rates from 2^63-2^34 on do so at the greatest double below 1 (C20_qpois_double_tail_violated). Missing: binary64 with rates between 2^63-2^35 and 2^63-2^34, and the smaller probabilities at rates just below 2^63."
  },
  {
   "property": "C21",
   "status": "proved",
   "theorems": [
    "Stats.C21_qinvgauss_newton",
    "Stats.C21_qinvgauss_fixed",
    "Stats.C21_qinvgauss_between",
    "Stats.C21_qinvgauss_converges",
    "Stats.C21_qinvgauss_floor",
    "Stats.C21_qinvgauss_error"
   ],
   "note": "At most 100 Newton steps for every library. In exact arithmetic: a point with zero update is a quantile; the iteration from the mode is monotone, stays between mode and quantile, and converges to the quantile; after the coded 100 steps the error is bounded geometrically or the stopping test is met; the value is never below mode/201."
  },
  {
   "property": "C22",
   "status": "partial",
   "theorems": [
    "Stats.C22_pnorm",
    "Stats.C22_qnorm",
    "Stats.C22_dunif",
    "Stats.C22_runif",
    "Stats.C22_rnorm",
    "Stats.C22_runif_value",
    "Stats.C22_dnorm_violated",
    "Stats.C22_pnorm_value",
    "Stats.C22_qnorm_value",
    "Stats.C22_dunif_value",
    "Stats.C22_dnorm_value_violated"
   ],
   "note": "The one-argument overloads of pnorm, qnorm, dunif, runif, rnorm agree with the full call for every library; dnorm does not (it calls pnorm), proved as a violation."
  },
  {
   "property": "C23",
   "status": "proved",
   "theorems": [
    "Stats.Vec.C23_result",
    "Stats.Vec.C23_serial",
    "Stats.Vec.C23_no_ub",
    "Stats.Vec.C23_in_bounds",
    "Stats.Vec.C23_race_free",
    "Stats.Vec.C23_progress",
    "Stats.Vec.C23_bounded",
    "Stats.Vec.C23_terminates"
   ],
   "note": "All lengths below 2^64, thread counts, schedules and scalar functions, including scalar calls that never return. Steps are sequentially consistent; race freedom (also proved) justifies this for C++. Blaze goes through blaze::map, see C65."
  },
  {
   "property": "C24",
   "status": "proved",
   "theorems": [
    "Stats.Vec.C24_parallel",
    "Stats.Vec.C24_serial",
    "Stats.Vec.C24_noomp",
    "Stats.Vec.C24_fills",
    "Stats.Vec.C24_schedule_independent",
    "Stats.Vec.C24_no_ub",
    "Stats.Vec.C24_progress",
    "Stats.Vec.C24_in_bounds",
    "Stats.Vec.C24_race_free",
    "Stats.Vec.C24_terminates"
   ],
   "note": "All generators (as resumable programs over an engine), lengths, thread counts and interleavings."
  },
  {
   "property": "C25",
   "status": "partial",
   "theorems": [
    "Stats.Vec.C25_partial",
    "Stats.Vec.ExamplesC25.C25_violated"
   ],
   "note": "False: proved violation (20 draws of rnorm, 1 or 3 threads). Proved: equal for thread counts of at least 4, and whenever neither call enters the parallel region."
  },
  {
   "property": "C26",
   "status": "partial",
   "theorems": [
    "Stats.Vec.C26_defined",
    "Stats.Vec.C26_partial",
    "Stats.Vec.C26_exact",
    "Stats.Vec.ExamplesC25.C26_violated"
   ],
   "note": "Exact arithmetic: pairwise distinct. With rounding: threads that are not neighbours get distinct seeds, and in binary64 neighbours can collide (proved witness)."
  },
  {
   "property": "C27",
   "status": "proved",
   "theorems": [
    "Stats.C27_rbern",
    "Stats.C27_rbeta",
    "Stats.C27_rbinom",
    "Stats.C27_rcauchy",
    "Stats.C27_rchisq",
    "Stats.C27_rexp",
    "Stats.C27_rf",
    "Stats.C27_rgamma",
    "Stats.C27_rinvgamma",
    "Stats.C27_rinvgauss",
    "Stats.C27_rlaplace",
    "Stats.C27_rlnorm",
    "Stats.C27_rlogis",
    "Stats.C27_rnorm",
    "Stats.C27_rpois",
    "Stats.C27_rradem",
    "Stats.C27_rt",
    "Stats.C27_runif",
    "Stats.C27_rweibull",
    "Stats.C27_mat",
    "Stats.C27_mat_serial"
   ],
   "note": "Each scalar seed overload (19 generators) is modelled separately and shown to return a value iff the engine overload does on the engine state made from this seed; matrix overloads give schedule-independent contents (C24). rmultinom violates reproducibility, see C34."
  },
  {
   "property": "C28",
   "status": "partial",
   "theorems": [
    "Stats.ExamplesC04.C28_rinvgauss_double_nan",
    "Stats.C28_rbern",
    "Stats.C28_rradem",
    "Stats.C28_rbinom_small",
    "Stats.C28_runif",
    "Stats.C28_rgamma_nonneg",
    "Stats.C28_rchisq_nonneg",
    "Stats.C28_rinvgamma_nonneg",
    "Stats.C28_rbeta_unit",
    "Stats.C28_rf_nonneg",
    "Stats.C28_rlnorm_nonneg",
    "Stats.C28_rweibull_nonneg",
    "Stats.C28_rexp_nonneg",
    "Stats.C28_rexp",
    "Stats.C28_rweibull",
    "Stats.C28_rcauchy",
    "Stats.C28_rlaplace",
    "Stats.C28_rlogis",
    "Stats.C28_rnorm",
    "Stats.C28_rlnorm",
    "Stats.C28_rpois",
    "Stats.C28_rbinom",
    "Stats.C28_rgamma",
    "Stats.C28_rchisq",
    "Stats.C28_rinvgamma_partial",
    "Stats.C28_rinvgamma_violated",
    "Stats.C28_rbeta",
    "Stats.C28_rf",
    "Stats.C28_rt",
    "Stats.C28_rinvgauss",
    "Stats.C28Double.C28_rbeta_double_violated",
    "Stats.C28Double.C28_rf_double_violated",
    "Stats.C28Double.C28_rt_double_violated",
    "Stats.C28Double.C28_rinvgamma_double_violated",
    "Stats.C33Double.C28_rinvgauss_double_violated",
    "Stats.C33Double.C28_rinvgauss_double_negative"
   ],
   "note": "Any arithmetic: no generator of a non-negative distribution other than rinvgauss returns a negative number, rbeta in [0,1] or NaN, rbern/rradem/rbinom/runif exact supports. Exact arithmetic: interior of the support, 'if it returns' for the rejection generators. rinvgamma needs rate <= 1/eps (violated above: NaN). rinvgauss in binary64 with mu much larger than lambda: 0 for mu = 2^30, negative for mu = 63*2^39, NaN for mu = 2^600 (C28_rinvgauss_double_*). Small shapes in binary64: pow(u, 1/shape) underflows, rbeta(2^-11,2^-11) and rf(2^-10,2^-10) are NaN and rt(2^-10), rinvgamma(2^-11,1) not finite whenever the uniform variates are at most 5/8 (C28B)."
  },
  {
   "property": "C29",
   "status": "proved",
   "theorems": [
    "Stats.C29_runif",
    "Stats.C29_rexp",
    "Stats.C29_rcauchy",
    "Stats.C29_rlaplace",
    "Stats.C29_rlogis",
    "Stats.C29_rweibull",
    "Stats.C29_rbern",
    "Stats.C29_rradem",
    "Stats.C29_rpois"
   ],
   "note": "Laws in exact arithmetic for an ideal engine (Spec.FairEngine) with nextafter(0,1) idealised to 0; each theorem gives value law, independence from the left-over state, and its law. rpois for rate >= eps is included as an extra."
  },
  {
   "property": "C30",
   "status": "proved",
   "theorems": [
    "Stats.C30_rbinom"
   ],
   "note": "All n and p in [0,1]; exact arithmetic, ideal engine."
  },
  {
   "property": "C31",
   "status": "proved",
   "theorems": [
    "Stats.C31_rgamma"
   ],
   "note": "Loop returns with probability one and the result has the gamma law; shapes up to 1 use the boost. Scale >= eps is what the parameter check demands; exact arithmetic, ideal engine."
  },
  {
   "property": "C32",
   "status": "partial",
   "theorems": [
    "Stats.C32_rnorm",
    "Stats.C32_rnorm_zero",
    "Stats.C32_rlnorm",
    "Stats.C32_rchisq",
    "Stats.C32_rinvgamma_partial",
    "Stats.C32_rinvgamma_violated",
    "Stats.C32_rbeta",
    "Stats.C32_rf",
    "Stats.C32_rt",
    "Stats.C32Double.C32_rinvgamma_double_violated",
    "Stats.C32Double.C32_rt_double_violated",
    "Stats.C32Double.C32_rbeta_double_violated",
    "Stats.C32Double.C32_rf_double_violated"
   ],
   "note": "All seven generators; rinvgamma only for rate <= 1/eps, because beyond that the code rejects its own scale and returns NaN (C32_rinvgamma_violated). In binary64 with small shapes rbeta(2^-11,2^-11), rf(2^-10,2^-10), rt(2^-10) and rinvgamma(2^-11,1) are NaN or infinite with positive probability, so they have no law on the reals (C32B, C32C)."
  },
  {
   "property": "C33",
   "status": "partial",
   "theorems": [
    "Stats.C33_root",
    "Stats.C33_rinvgauss",
    "Stats.C33Double.C33_rinvgauss_double_stuck",
    "Stats.C33Double.C33_rinvgauss_double_violated",
    "Stats.C33Double.C33_root_double_violated"
   ],
   "note": "Exact arithmetic: C33_root, the result is a positive root for every engine state; C33_rinvgauss, the law. Violated in binary64 by cancellation when mu is much larger than lambda: for mu = 2^60, lambda = 1 the draw is 2^60 for every normal variate between 1 and 1024 in absolute value, so it is not a root and the law has an atom (C33_*_double_violated)."
  },
  {
   "property": "C34",
   "status": "partial",
   "theorems": [
    "Stats.C34_rmultinom_partial",
    "Stats.C34_rmultinom_total_partial",
    "Stats.C34_bad_prob",
    "Stats.C34_ub_violated",
    "Stats.C34_engine_violated",
    "Stats.ExamplesC34.C34_rounding_violated"
   ],
   "note": "Counts are naturals with sum at most the number of categories in every arithmetic; equal to it in exact arithmetic when partial sums stay below one. Violated: first count comes from random_device, (1,0) and (in binary64) (0.5,0.3,0.2) end in undefined behaviour, the number of trials cannot be chosen."
  },
  {
   "property": "C35",
   "status": "partial",
   "theorems": [
    "Stats.C35_rmvnorm_pre",
    "Stats.C35_rmvnorm_partial",
    "Stats.C35_rmvnorm_empty",
    "Stats.C35_rmvnorm_nonempty",
    "Stats.C35_rmvnorm_n_empty",
    "Stats.C35_rmvnorm_n_pre",
    "Stats.C35_rmvnorm_n_partial",
    "Stats.C35_rmvnorm_law_partial",
    "Stats.C35_rmvnorm_pre_law",
    "Stats.C35_rmvnorm_pre_moments",
    "Stats.C35_rmvnorm_moments_partial",
    "Stats.C35_rmvnorm_n_pre_law",
    "Stats.C35_rmvnorm_n_law_partial",
    "Stats.C35_rmvnorm_violated",
    "Stats.C35_rwish",
    "Stats.C35_rwish_pre",
    "Stats.C35_rwish_partial",
    "Stats.C35_rinvwish_pre",
    "Stats.C35_rinvwish_partial",
    "Stats.C47Double.C35_rwish_double_violated"
   ],
   "note": "Exact arithmetic, exact solvers, every dimension, every draw. rmvnorm is mu + L z with L L' = Sigma, its law (ideal engine) has the density of C36, mean mu and covariance Sigma; rows of the matrix version are independent; dimension mismatch gives the empty object. rwish is symmetric positive semi-definite on all libraries, positive definite with Armadillo and Eigen; rinvwish is its inverse. Partial because the Cholesky factor on Blaze is wrong: C35_rmvnorm_violated shows that the covariance is then not Sigma. In binary64 a one-dimensional draw with nu = 2^-10 is 0 (semi-definite, not definite) or NaN whenever the first uniform variate is at most 5/8 (C35_rwish_double_violated)."
  },
  {
   "property": "C36",
   "status": "partial",
   "theorems": [
    "Stats.C36_exp_log",
    "Stats.C36_dmvnorm",
    "Stats.C36_dwish",
    "Stats.C36_dwish_int_partial",
    "Stats.C36_dwish_int_violated",
    "Stats.C36_dinvwish",
    "Stats.C36_dinvwish_int",
    "Stats.C36Double.C36_dwish_double_violated",
    "Stats.C36Double.C36_dwish_double_example"
   ],
   "note": "Exact arithmetic and exact solvers (Ideal, IdealLin), all three matrix libraries, every dimension. dmvnorm, dinvwish and dwish with a floating nu are proved equal to the textbook densities and their logarithms; dwish with an integral nu only for nu > K, since nu-K-1 wraps modulo 2^64 at nu = K (C36_dwish_int_violated). In binary64, even with a correctly rounded determinant, dwish and its logarithm are NaN at all positive definite matrices whose determinants both overflow or both underflow (C36_dwish_double_violated; 2^40 I in dimension 30 is an instance); dinvwish and dmvnorm add logarithms of a Cholesky diagonal instead."
  },
  {
   "property": "C37",
   "status": "partial",
   "theorems": [
    "Stats.C37_cumsum_any",
    "Stats.C37_cumsum",
    "Stats.C37_cumsum_blaze_partial",
    "Stats.C37_cumsum_blaze_violated",
    "Stats.C37_accu",
    "Stats.C37_sqaccu",
    "Stats.C37_mean",
    "Stats.C37_mean_nil",
    "Stats.C37_var",
    "Stats.C37_var_nonneg",
    "Stats.C37_var_arma",
    "Stats.C37_var_violated",
    "Stats.C37_sum_absdiff",
    "Stats.C37_sum_absdiff_short",
    "Stats.C37_exp",
    "Stats.C37_log",
    "Stats.C37_fill",
    "Stats.C37_zeros_partial",
    "Stats.C37_zeros_length",
    "Stats.C37_zeros_violated",
    "Stats.C37_zeros_blaze",
    "Stats.C37_eye",
    "Stats.C37_get_row",
    "Stats.C37_repmat_partial",
    "Stats.C37_repmat_violated",
    "Stats.C37_trans",
    "Stats.C37_trace",
    "Stats.C37_quad_form_inv",
    "Stats.C37_quad_form",
    "Stats.C37_log_det",
    "Stats.C37_solve",
    "Stats.C37_chol_partial",
    "Stats.C37_chol_violated",
    "Stats.C37_var_arma_nonneg",
    "Stats.C37_var_double_violated"
   ],
   "note": "Proved for the loops written out in the library and, under the contract that the matrix libraries' solvers are exact, for quad_form, log_det, solve, trace, trans. Violated: Blaze repmat with two or more block columns, Blaze cumsum of a padded row-major column, std::vector zeros on a non-empty vector, var divisor differs between libraries, Blaze chol keeps the upper triangle. Order of summation inside the matrix libraries is taken left to right (irrelevant in exact arithmetic). In binary64 var of three equal numbers can be negative (proved violation)."
  },
  {
   "property": "C38",
   "status": "partial",
   "theorems": [
    "Stats.C38_common_return",
    "Stats.C38_integral",
    "Stats.C38_floating",
    "Stats.C38_perm",
    "Stats.C38_common_comm",
    "Stats.C38_common_assoc",
    "Stats.C38_common_range",
    "Stats.C38_common_width",
    "Stats.C38_result_type_partial",
    "Stats.C38_result_type_violated",
    "Stats.C38_work_type_partial",
    "Stats.C38_work_type_violated",
    "Stats.C38_cast_exact",
    "Stats.C38_cast_violated",
    "Stats.C38_call1",
    "Stats.C38_call2",
    "Stats.C38_call3",
    "Stats.C38_callZ_partial",
    "Stats.C38_callZ_violated",
    "Stats.C38_callZ_trunc",
    "Stats.C38_callZ_undefined_violated",
    "Stats.C38_rbern_partial",
    "Stats.C38_rradem_partial",
    "Stats.C38_rbinom_partial",
    "Stats.C38_rand_else",
    "Stats.C38_rand_violated",
    "Stats.C38_pbinom_partial",
    "Stats.C38_pbinom_nan_violated",
    "Stats.C38_pbinom_log_violated",
    "Stats.C38_pbinom_log_undefined_violated"
   ],
   "note": "common_return_t is proved, for any number of argument types, to be the widest floating type among them and double when all are integral; every scalar signature of the library except pbinom returns that type. Conversion of integral arguments is exact up to 2^53 in binary64 and a call depends only on the numbers its arguments stand for. Violations: pbinom returns its uncast type (int in, int out: no NaN, log form 0 or undefined); rbern, rradem and rbinom return 0 instead of NaN for an integral probability out of range; the discrete d/p functions truncate a fractional point."
  },
  {
   "property": "C39",
   "status": "partial",
   "theorems": [
    "Stats.C39_pchisq_gamma",
    "Stats.C39_qchisq_gamma",
    "Stats.C39_dchisq_gamma",
    "Stats.C39_dexp_gamma",
    "Stats.C39_dexp_weibull_partial",
    "Stats.C39_dexp_weibull_violated",
    "Stats.C39_pexp_gamma_partial",
    "Stats.C39_pexp_weibull_partial",
    "Stats.C39_pexp_gamma_violated",
    "Stats.C39_qexp_weibull",
    "Stats.C39_qexp_gamma",
    "Stats.C39_dt_cauchy",
    "Stats.C39_pt_cauchy",
    "Stats.C39_qt_cauchy",
    "Stats.C39_dlnorm",
    "Stats.C39_plnorm_partial",
    "Stats.C39_plnorm_violated",
    "Stats.C39_qlnorm",
    "Stats.C39_dinvgamma",
    "Stats.C39_pinvgamma",
    "Stats.C39_qinvgamma",
    "Stats.C39_dbern_binom",
    "Stats.C39_pbern_binom",
    "Stats.C39_qbern_binom_partial",
    "Stats.C39_qbern_binom_violated",
    "Stats.C39_pf_beta_partial",
    "Stats.C39_qf_beta"
   ],
   "note": "Exact arithmetic (chi-squared/gamma cdf and quantile: every arithmetic). Fails where one function cuts its argument at eps, at dweibull(0) = NaN and at qbinom(1,1,0); each failure is proved as _violated."
  },
  {
   "property": "C40",
   "status": "partial",
   "theorems": [
    "Stats.C40_dnorm_symm",
    "Stats.C40_pnorm_symm",
    "Stats.C40_qnorm_symm",
    "Stats.C40_dnorm_scale",
    "Stats.C40_pnorm_scale",
    "Stats.C40_qnorm_scale",
    "Stats.C40_dcauchy_symm",
    "Stats.C40_pcauchy_symm",
    "Stats.C40_qcauchy_symm",
    "Stats.C40_dcauchy_scale",
    "Stats.C40_pcauchy_scale",
    "Stats.C40_qcauchy_scale",
    "Stats.C40_dlaplace_symm",
    "Stats.C40_plaplace_symm",
    "Stats.C40_qlaplace_symm",
    "Stats.C40_dlaplace_scale",
    "Stats.C40_plaplace_scale",
    "Stats.C40_qlaplace_scale",
    "Stats.C40_dlogis_symm",
    "Stats.C40_plogis_symm",
    "Stats.C40_qlogis_symm",
    "Stats.C40_dlogis_scale",
    "Stats.C40_plogis_scale",
    "Stats.C40_qlogis_scale",
    "Stats.C40_dt_symm",
    "Stats.C40_pt_symm",
    "Stats.C40_qt_symm_partial",
    "Stats.C40_qt_symm_violated",
    "Stats.C40_dnorm_reflect",
    "Stats.C40_dcauchy_reflect",
    "Stats.C40_dlaplace_reflect",
    "Stats.C40_dt_reflect",
    "Stats.C40_dnorm_swap",
    "Stats.C40_dcauchy_swap",
    "Stats.C40_dlaplace_swap",
    "Stats.C40_pt_reflect_partial",
    "Stats.C40_qcauchy_reflect",
    "Stats.C40_qlaplace_reflect",
    "Stats.C40_qnorm_reflect",
    "Stats.C40_pnorm_median",
    "Stats.C40_pcauchy_median",
    "Stats.C40_plaplace_median",
    "Stats.C40_qcauchy_median",
    "Stats.C40_qlaplace_median",
    "Stats.C40Double.C40_qnorm_double",
    "Stats.C40Double.C40_dlogis_reflect_violated",
    "Stats.C40Double.C40_pnorm_reflect_violated",
    "Stats.C40Double.C40_pcauchy_reflect_violated",
    "Stats.C40Double.C40_plogis_reflect_violated",
    "Stats.C40Double.C40_plaplace_reflect_violated",
    "Stats.C40Double.C40_pt_reflect_violated",
    "Stats.C40Double.C40_qlogis_reflect_violated"
   ],
   "note": "Exact arithmetic: all five families except the Student-t quantile outside dof 1, 2, inf, where it is false (proved). Every arithmetic, all arguments (C40R): the normal, Cauchy, Laplace and t densities are unchanged by (x,mu) -> (-x,-mu) and by swapping x and mu, the quantiles of norm, Cauchy, Laplace turn around, the location is the median, pt(x) = 1 - pt(-x) for dof other than 1, 2. The logistic density loses the reflection to overflow in binary64 (C40_dlogis_reflect_violated). The distribution functions of norm, Cauchy, Laplace, logistic and of t with 1, 2, infinitely many degrees of freedom lose it in binary64 next to the median, where the spacing of doubles halves, and so does qlogis (C40S, *_reflect_violated)."
  },
  {
   "property": "C41",
   "status": "partial",
   "theorems": [
    "Stats.C41_pnorm",
    "Stats.C41_dnorm",
    "Stats.C41_qnorm",
    "Stats.C41_rnorm",
    "Stats.C41_plaplace_partial",
    "Stats.C41_plaplace_violated",
    "Stats.C41_dlaplace",
    "Stats.C41_qlaplace",
    "Stats.C41_plogis_partial",
    "Stats.C41_plogis_violated",
    "Stats.C41_qlogis",
    "Stats.C41_dlogis_violated",
    "Stats.C41_dcauchy_violated",
    "Stats.C41_pcauchy_partial",
    "Stats.C41_pcauchy_violated",
    "Stats.C41_qcauchy",
    "Stats.C41_qlnorm",
    "Stats.C41_rlnorm",
    "Stats.C41_dlnorm_violated",
    "Stats.C41_plnorm_partial",
    "Stats.C41_plnorm_violated",
    "Stats.C41_rlaplace",
    "Stats.C41_rlogis",
    "Stats.C41_rcauchy",
    "Stats.C41_dinvgauss_inf",
    "Stats.C41_pinvgauss_inf",
    "Stats.C41_dgamma",
    "Stats.C41_pgamma_partial",
    "Stats.C41_pgamma_violated",
    "Stats.C41_dpois",
    "Stats.C41_dbinom",
    "Stats.C41_pbinom",
    "Stats.C41_dbeta_zero",
    "Stats.C41_dbeta_one",
    "Stats.C41_dbeta_half",
    "Stats.C41_dbeta_two",
    "Stats.C41_pbeta_zero_partial",
    "Stats.C41_pbeta_zero_violated",
    "Stats.C41_pbeta_one",
    "Stats.C41_pbeta_half",
    "Stats.C41_pbeta_two_partial",
    "Stats.C41_pbeta_two_violated",
    "Stats.C41_qbeta_zero",
    "Stats.C41_qbeta_one",
    "Stats.C41_qbeta_half",
    "Stats.C41_qbeta_two",
    "Stats.C41_df",
    "Stats.C41_pf_partial",
    "Stats.C41_pf_violated",
    "Stats.C41_qf",
    "Stats.C41_qgamma",
    "Stats.C41_dinvgamma",
    "Stats.C41_pinvgamma_partial",
    "Stats.C41_pinvgamma_violated",
    "Stats.C41_qinvgamma",
    "Stats.C41_dchisq",
    "Stats.C41_pchisq_partial",
    "Stats.C41_pchisq_violated",
    "Stats.C41_dinvgauss_zero",
    "Stats.C41_pinvgauss_zero",
    "Stats.C41_qinvgauss_zero",
    "Stats.C41_qinvgauss_violated",
    "Stats.C41_pexp_partial",
    "Stats.C41_pexp_violated",
    "Stats.C41_dexp_violated",
    "Stats.C41_qexp",
    "Stats.C41_pweibull_partial",
    "Stats.C41_pweibull_violated",
    "Stats.C41_qweibull",
    "Stats.C41_ppois",
    "Stats.C41_qpois",
    "Stats.C41_rpois",
    "Stats.C41_dbern",
    "Stats.C41_pbern",
    "Stats.C41_qbern",
    "Stats.C41_rbern",
    "Stats.C41_rradem"
   ],
   "note": "Point masses proved family by family (C41, C41B, C41C): normal, Cauchy, Laplace, logistic, log-normal at scale 0; gamma with shape 0; inverse gamma with rate 0; chi-square without degrees of freedom; beta and F; inverse Gaussian; exponential and Weibull in the limit; Poisson, Bernoulli, Rademacher and binomial sure outcomes. Violations proved where the code gives NaN or the wrong value at the atom (dlogis, dcauchy, pcauchy, plaplace, plogis, dlnorm, plnorm, pgamma, pinvgamma, pchisq, pexp, dexp, qinvgauss, pweibull, pbeta, pf)."
  },
  {
   "property": "C42",
   "status": "partial",
   "theorems": [
    "Stats.C42_qt_one",
    "Stats.C42_qt_two",
    "Stats.C42_qt_inf",
    "Stats.C42_qt_symm_partial",
    "Stats.C42_qt_nan_violated",
    "Stats.C42_qt_symm_violated",
    "Stats.C42_qt_mono_violated",
    "Stats.C42_qt_far_violated",
    "Stats.C42_refine",
    "Stats.C42_refine_fixed",
    "Stats.C42_qt_tail"
   ],
   "note": "dof 1, 2 and infinity: exact inverse and symmetry. Other dof: in the lower tail the refinement loop has the quantile as fixed point and cubes the error in every round near it (C42_refine, C42_qt_tail); accuracy in the far tail and for many degrees of freedom: C63. For p > 1/2 the code calls Hill's algorithm with 2p > 1: not symmetric (dof 5), not monotone and far off (dof 3); dof in [eps, 1/2) gives NaN. Missing: explicit error bounds at moderate p and dof."
  },
  {
   "property": "C43",
   "status": "partial",
   "theorems": [
    "Stats.C43_dnorm_x",
    "Stats.C43_dnorm_mu",
    "Stats.C43_dnorm_sigma",
    "Stats.C43_pnorm_mu",
    "Stats.C43_pnorm_sigma",
    "Stats.C43_dcauchy_x",
    "Stats.C43_dcauchy_mu",
    "Stats.C43_dcauchy_sigma",
    "Stats.C43_pcauchy_mu",
    "Stats.C43_pcauchy_sigma",
    "Stats.C43_dlaplace_x",
    "Stats.C43_dlaplace_mu",
    "Stats.C43_dlaplace_sigma",
    "Stats.C43_plaplace_mu",
    "Stats.C43_plaplace_sigma",
    "Stats.C43_dlogis_x",
    "Stats.C43_dlogis_mu",
    "Stats.C43_dlogis_sigma",
    "Stats.C43_plogis_mu",
    "Stats.C43_plogis_sigma",
    "Stats.C43_dlnorm_x",
    "Stats.C43_dlnorm_mu",
    "Stats.C43_dlnorm_sigma",
    "Stats.C43_plnorm_mu",
    "Stats.C43_plnorm_sigma",
    "Stats.C43_dexp_rate_violated",
    "Stats.C43_dexp_x_partial",
    "Stats.C43_dexp_x_violated",
    "Stats.C43_pexp_rate",
    "Stats.C43_dgamma_x",
    "Stats.C43_dgamma_shape",
    "Stats.C43_dgamma_scale",
    "Stats.C43_pgamma_shape",
    "Stats.C43_pgamma_scale",
    "Stats.C43_dchisq_x",
    "Stats.C43_dchisq_dof",
    "Stats.C43_pchisq_dof",
    "Stats.C43_dinvgamma_x",
    "Stats.C43_dinvgamma_shape",
    "Stats.C43_dinvgamma_rate",
    "Stats.C43_pinvgamma_shape",
    "Stats.C43_pinvgamma_rate_violated",
    "Stats.C43_dinvgauss_x",
    "Stats.C43_dinvgauss_lambda",
    "Stats.C43_dinvgauss_mu_violated",
    "Stats.C43_pinvgauss_lambda",
    "Stats.C43_pinvgauss_mu_violated",
    "Stats.C43_dt_x",
    "Stats.C43_dt_dof",
    "Stats.C43_pt_dof",
    "Stats.C43_df_df2",
    "Stats.C43_df_df1",
    "Stats.C43_df_x_partial",
    "Stats.C43_df_x_violated",
    "Stats.C43_pf_df2",
    "Stats.C43_pf_df1_partial",
    "Stats.C43_pf_df1_violated",
    "Stats.C43_dweibull_x",
    "Stats.C43_dweibull_scale_partial",
    "Stats.C43_dweibull_scale_violated",
    "Stats.C43_dweibull_shape_violated",
    "Stats.C43_pweibull_scale",
    "Stats.C43_pweibull_shape",
    "Stats.C43_dbeta_a",
    "Stats.C43_dbeta_b",
    "Stats.C43_pbeta_a",
    "Stats.C43_pbeta_b",
    "Stats.C43_dunif_b_partial",
    "Stats.C43_dunif_b_violated",
    "Stats.C43_punif_b",
    "Stats.C43_punif_a_violated",
    "Stats.C43_dpois_rate",
    "Stats.C43_ppois_rate",
    "Stats.C43_qnorm_mu",
    "Stats.C43_qnorm_sigma_violated",
    "Stats.C43_qcauchy_mu",
    "Stats.C43_qcauchy_sigma_violated",
    "Stats.C43_qlogis_mu",
    "Stats.C43_qlogis_sigma_violated",
    "Stats.C43_qlaplace_mu",
    "Stats.C43_qlaplace_sigma_violated",
    "Stats.C43_qlnorm_mu",
    "Stats.C43_qunif_b_violated",
    "Stats.C43_qunif_a_violated",
    "Stats.C43_qexp_rate",
    "Stats.C43_qweibull_shape",
    "Stats.C43_qweibull_scale",
    "Stats.C43_qgamma_shape_violated",
    "Stats.C43_qgamma_scale_violated",
    "Stats.C43_qchisq_dof_violated",
    "Stats.C43_qinvgamma_shape_violated",
    "Stats.C43_qinvgamma_rate_violated",
    "Stats.C43_qbeta_a",
    "Stats.C43_qbeta_b",
    "Stats.C43_qf_df2",
    "Stats.C43_qf_df1",
    "Stats.C43_qinvgauss_lambda_limit",
    "Stats.C43_qinvgauss_lambda_violated",
    "Stats.C43_qinvgauss_mu_violated",
    "Stats.C43_qt_dof"
   ],
   "note": "Exact arithmetic. Proved for all location-scale densities, distribution functions and location limits of quantiles; gamma, chi-squared, inverse gamma, inverse Gaussian (lambda), t (dof = inf is the normal limit), F (gamma, inverse gamma limits), Weibull, beta, uniform, Poisson, exponential. Violated: scale = inf of qnorm/qcauchy/qlogis/qlaplace (NaN), dexp and log dexp(+inf), dunif log form, punif and qunif infinite bounds, dweibull scale = inf with shape <= 1 and shape = inf, dinvgauss and pinvgauss mean = inf (0 instead of the Levy limit), pinvgamma rate = inf, df(+inf), pf df1 = inf log form, qgamma, qchisq, qinvgamma, qinvgauss (NaN at both infinite parameters; the finite values tend to the mean for lambda, stay bounded for mu). qt: dof = inf is the limit although the finite values are approximate."
  },
  {
   "property": "C44",
   "status": "partial",
   "theorems": [
    "Stats.Wrap.C44_forward",
    "Stats.Wrap.C44_engine",
    "Stats.Wrap.C44_callee",
    "Stats.Wrap.C44_unique",
    "Stats.Wrap.C44_names",
    "Stats.Wrap.C44_overloads",
    "Stats.Wrap.C44_overload_of_container",
    "Stats.Wrap.C44_eval",
    "Stats.Wrap.C44_eval_returns",
    "Stats.Wrap.C44_blaze_dens",
    "Stats.Wrap.C44_blaze_violated",
    "Stats.Wrap.C44_rand_run",
    "Stats.Wrap.C44_rand",
    "Stats.Wrap.C44_rand_draws",
    "Stats.Wrap.C44_rand_schedule",
    "Stats.Wrap.C44_seed",
    "Stats.Wrap.C44_rand_returns",
    "Stats.Wrap.C44_rand_length",
    "Stats.Wrap.C44_rand_length_violated"
   ],
   "note": "Proved for std::vector, Armadillo and Eigen, for the Blaze densities and generators. C44_blaze_violated: the Blaze overloads of p* and q* name a function that is not visible. C44_rand_length_violated: a std::vector result of 2^64 elements or more wraps. Blaze with threads: C65."
  },
  {
   "property": "C45",
   "status": "partial",
   "theorems": [
    "Stats.C45_dnorm",
    "Stats.C45_dlaplace",
    "Stats.C45_dlogis",
    "Stats.C45_dcauchy_partial",
    "Stats.C45_dcauchy_violated",
    "Stats.C45_pcauchy",
    "Stats.C45_plaplace",
    "Stats.C45_plogis",
    "Stats.C45_pnorm_partial",
    "Stats.C45_pnorm_violated",
    "Stats.C45_qnorm",
    "Stats.C45_qcauchy",
    "Stats.C45_qlogis",
    "Stats.C45_qlaplace"
   ],
   "note": "Exact arithmetic. Proved in full for dnorm, dlaplace, dlogis, pcauchy, plaplace, plogis and the four quantile functions. Violated: pnorm with infinite scale and an infinite point or location returns 0 or 1 although no limit exists; dcauchy there returns NaN although the limit is 0."
  },
  {
   "property": "C46",
   "status": "partial",
   "theorems": [
    "Stats.Vec.C46_noomp",
    "Stats.Vec.C46_openmp_partial",
    "Stats.Vec.C46_first_values",
    "Stats.Vec.C46_vector_values",
    "Stats.Vec.C46_parallel_violated"
   ],
   "note": "Proved without OpenMP and for vectors too short for a parallel region. Violated for longer vectors with OpenMP: every engine is freshly seeded with one of 1001 values, so a vector takes at most 1001^n values for n threads (also for one thread), and no law without atoms is possible."
  },
  {
   "property": "C47",
   "status": "partial",
   "theorems": [
    "Stats.C47_rwish_pre",
    "Stats.C47_rwish_partial",
    "Stats.C47_rinvwish_pre",
    "Stats.C47_rinvwish_partial",
    "Stats.C47_rwish_float_partial",
    "Stats.C47_rwish_int_partial",
    "Stats.C47_rinvwish_float_partial",
    "Stats.C47_rinvwish_int_partial",
    "Stats.C47_dwish_total",
    "Stats.C47_dinvwish_total",
    "Stats.C47_rwish_pre_mean",
    "Stats.C47_rwish_mean_partial",
    "Stats.C47_rwish_violated",
    "Stats.C47Double.C47_rwish_double_violated"
   ],
   "note": "Laws of rwish and rinvwish for every K, every positive definite scale matrix and every real nu > K-1, in exact arithmetic with the lower end of runif idealised to 0; normalisation of both densities and the mean of rwish. Missing: Blaze without a supplied factor, where the law is wrong (C47_rwish_violated). In binary64 rwish in dimension one with nu = 2^-10 has no density on the positive definite matrices, since its chi-squared draw underflows (C47_rwish_double_violated, every engine with ideal draws, every library)."
  },
  {
   "property": "C48",
   "status": "partial",
   "theorems": [
    "Stats.C48_rmultinom_partial",
    "Stats.C48_rmultinom_mixed_partial",
    "Stats.C48_rmultinom_violated"
   ],
   "note": "Exact arithmetic, lower end of runif idealised to 0. Given the first count, which depends only on the seed of a second engine, the other counts have the conditional multinomial law and are independent of the engine left behind; if that seed makes the first count binomial, all counts are multinomial. C48_rmultinom_violated: with b uniform seed bits, any engine and any arithmetic, the counts are not multinomial unless p0^n is a multiple of 2^-b. Missing: rounding, vectors with a partial sum equal to one (undefined behaviour, C34_ub_violated)."
  },
  {
   "property": "C49",
   "status": "partial",
   "theorems": [
    "Stats.C49_accu",
    "Stats.C49_sqaccu",
    "Stats.C49_mean",
    "Stats.C49_var",
    "Stats.C49_dnorm",
    "Stats.C49_dlnorm",
    "Stats.C49_dlnorm_plain",
    "Stats.C49_dunif",
    "Stats.C49_dexp",
    "Stats.C49_dcauchy",
    "Stats.C49_dlaplace",
    "Stats.C49_dlogis",
    "Stats.C49_dbeta",
    "Stats.C49_dgamma",
    "Stats.C49_dinvgamma",
    "Stats.C49_dinvgauss",
    "Stats.C49_dchisq",
    "Stats.C49_dt",
    "Stats.C49_dweibull",
    "Stats.C49_dbern",
    "Stats.C49_dradem",
    "Stats.C49_dpois",
    "Stats.C49_dbinom",
    "Stats.C49_punif",
    "Stats.C49_pexp",
    "Stats.C49_pweibull",
    "Stats.C49_qweibull",
    "Stats.C49_pnorm",
    "Stats.C49_plogis",
    "Stats.C49_pcauchy",
    "Stats.C49_plaplace",
    "Stats.C49_qunif",
    "Stats.C49_qexp",
    "Stats.C49_qlogis",
    "Stats.C49_qlaplace_partial",
    "Stats.ExamplesC49.C49_qexp_double_violated",
    "Stats.ExamplesC49.C49_qlaplace_double_violated",
    "Stats.ExamplesC49.C49_qnorm_double_violated",
    "Stats.ExamplesC49.C49_plogis_double_violated",
    "Stats.ExamplesC49.C49_plaplace_double_violated",
    "Stats.ExamplesC49.C49_pnorm_double_violated",
    "Stats.ExamplesC49.C49_pcauchy_double_violated",
    "Stats.C49_pgamma",
    "Stats.C49_pchisq",
    "Stats.C49_pbeta",
    "Stats.C49_pinvgamma",
    "Stats.C49_plnorm",
    "Stats.C49_pf_partial",
    "Stats.C49_qgamma",
    "Stats.C49_qchisq",
    "Stats.C49_qbeta",
    "Stats.C49_qinvgamma_partial",
    "Stats.C49_qf_partial",
    "Stats.C49_pt",
    "Stats.C49_pt_lower",
    "Stats.C49_pinvgauss",
    "Stats.C49_pbern",
    "Stats.C49_pbinom",
    "Stats.C49_ppois_small",
    "Stats.C49_ppois_large",
    "Stats.C49_df_partial",
    "Stats.ExamplesC49.C49_pinvgauss_double_violated",
    "Stats.ExamplesC49.C49_qcauchy_double_violated",
    "Stats.C49_qnorm",
    "Stats.C49_qlnorm",
    "Stats.C49_qcauchy",
    "Stats.C49_qt_one",
    "Stats.C49_qt_two",
    "Stats.C49_qlaplace",
    "Stats.C49_qinvgamma",
    "Stats.C49_qbinom",
    "Stats.C49_qpois_partial",
    "Stats.C49_qinvgauss_partial",
    "Stats.ExamplesC49.C49_dcauchy_double_violated",
    "Stats.ExamplesC49.C49_dt_double_violated",
    "Stats.ExamplesC49L.C49_pnorm_overflow_violated",
    "Stats.ExamplesC49L.C49_plaplace_overflow_violated",
    "Stats.ExamplesC49L.C49_dunif_overflow_violated",
    "Stats.ExamplesC49L.C49_dlaplace_overflow_violated",
    "Stats.C49_qpois_large_partial",
    "Stats.C49_qweibull_any"
   ],
   "note": "All densities (df up to df1 x = df2) and all distribution functions. Relative: punif, pexp, pweibull, pgamma, pchisq, pbeta, pf (df2 at least 2), lower tail of pt, pbern, pbinom, ppois at small rates; absolute: pnorm, plnorm, plogis, pcauchy, plaplace, pt, pinvgamma, pinvgauss, ppois at large rates. Quantiles: unif, exp, logis, laplace, weibull, gamma, chisq, beta, invgamma, f (lower part), t with two degrees of freedom; norm, lnorm, cauchy, t with one degree of freedom (and laplace, invgamma, weibull without exactness conditions) for a probability within rounding of the given one; binom, pois up to the error of the distribution function (rate from 11 on: counts below 2^19 and probabilities that are not too extreme). Also the sum, mean and variance of a vector. The incomplete gamma and beta functions and their inverses, tan and erf_inv are taken as accurate to u. Relative accuracy of tails is violated in binary64 (C49C, C49F); pinvgauss at the mean is wrong by more than 1/(6 sqrt lambda) there (C49F). qinvgauss: if fewer than 100 rounds are used, the result is a quantile of a probability within the error of pinvgauss of the given one. Overflow of a square in binary64: dcauchy with a tiny scale and dt from 2^512 on are 0 (C49K); pnorm(B,-B,B) and plaplace(B,-B,B) are 1, dunif(0,-B,B) and dlaplace(0,0,B) are 0 for B from 2^1023 on (C49L). Not covered: underflow and overflow in general, qt with other degrees of freedom, qinvgauss when the limit of rounds ends the loop."
  },
  {
   "property": "C50",
   "status": "partial",
   "theorems": [
    "Stats.C50_runif",
    "Stats.C50_rexp",
    "Stats.C50_rcauchy",
    "Stats.C50_rlaplace",
    "Stats.C50_rlogis",
    "Stats.C50_rweibull",
    "Stats.C50_rbern",
    "Stats.C50_rradem",
    "Stats.C50_rbinom",
    "Stats.C50_rpois",
    "Stats.C50_rpois_violated",
    "Stats.C50_rpois_small",
    "Stats.C50_rpois_all",
    "Stats.C50_rgamma",
    "Stats.C50_rchisq",
    "Stats.C50_rinvgamma_partial",
    "Stats.C50_rbeta",
    "Stats.C50_rf",
    "Stats.C50_rt",
    "Stats.C50_rinvgauss",
    "Stats.Vec.C50_noomp",
    "Stats.Vec.C50_openmp_partial",
    "Stats.C50_rwish_pre",
    "Stats.C50_rwish_partial",
    "Stats.C50_rinvwish_pre",
    "Stats.C50_rinvwish_partial",
    "Stats.C50_rwish_float_partial",
    "Stats.C50_rwish_int_partial",
    "Stats.C50_rinvwish_float_partial",
    "Stats.C50_rinvwish_int_partial",
    "Stats.C50_rmultinom_partial"
   ],
   "note": "Every generator with a law theorem is covered with the true interval [nextafter(0,1), 1): total-variation bounds in multiples of d = nextafter(0,1). _partial where the exact theorem is: rinvgamma with rates above 1/eps, Wishart on Blaze without a supplied factor, long vectors with OpenMP, the mixture over seeds of rmultinom."
  },
  {
   "property": "C51",
   "status": "partial",
   "theorems": [
    "Stats.C51_dexp",
    "Stats.C51_pexp",
    "Stats.C51_qexp",
    "Stats.C51_dgamma",
    "Stats.C51_pgamma_partial",
    "Stats.C51_qgamma",
    "Stats.C51_dweibull",
    "Stats.C51_pweibull_partial",
    "Stats.C51_qweibull",
    "Stats.C51_dinvgamma",
    "Stats.C51_pinvgamma_partial",
    "Stats.C51_qinvgamma",
    "Stats.C51_dinvgauss",
    "Stats.C51_pinvgauss",
    "Stats.C51_dlnorm",
    "Stats.C51_plnorm_partial",
    "Stats.C51_qlnorm",
    "Stats.C51_dunif",
    "Stats.C51_punif",
    "Stats.C51_qunif",
    "Stats.C51_cut_violated",
    "Stats.C51_dbeta_mirror",
    "Stats.C51_pbeta_mirror",
    "Stats.C51_qbeta_mirror",
    "Stats.C51_df_mirror",
    "Stats.C51_pf_mirror_partial",
    "Stats.C51_qf_mirror",
    "Stats.C51_dbinom_mirror",
    "Stats.C51_pbinom_mirror",
    "Stats.C51_dbern_mirror",
    "Stats.C51_pbern_mirror",
    "Stats.C51_dradem_mirror",
    "Stats.C51_pradem_mirror",
    "Stats.C51_qinvgauss",
    "Stats.C51_pweibull_exp_partial",
    "Stats.C51_ppois_gamma_partial",
    "Stats.C51_pbinom_beta",
    "Stats.C51_rnorm",
    "Stats.C51_rcauchy",
    "Stats.C51_rlaplace",
    "Stats.C51_rlogis",
    "Stats.C51_rexp",
    "Stats.C51_rweibull",
    "Stats.C51_rlnorm",
    "Stats.C51_rgamma",
    "Stats.C51_rinvgamma",
    "Stats.C51_rinvgauss"
   ],
   "note": "Proved in exact arithmetic for all parameters in range, all factors, all points, all engine states. Partial: pgamma, pweibull, plnorm, pinvgamma, pf and ppois/pgamma only away from the cut-offs at epsilon, across which the claim fails (C51_cut_violated)."
  },
  {
   "property": "C52",
   "status": "partial",
   "theorems": [
    "Stats.C52_dnorm",
    "Stats.C52_dlnorm",
    "Stats.C52_dunif",
    "Stats.C52_dexp",
    "Stats.C52_dlaplace",
    "Stats.C52_dlogis",
    "Stats.C52_dgamma",
    "Stats.C52_dchisq",
    "Stats.C52_dbeta",
    "Stats.C52_dweibull",
    "Stats.C52_dinvgauss",
    "Stats.C52_dinvgamma",
    "Stats.C52_dinvgamma_mean",
    "Stats.C52_dinvgamma_none",
    "Stats.C52_df",
    "Stats.C52_df_mean",
    "Stats.C52_df_none",
    "Stats.C52_dt",
    "Stats.C52_dt_mean",
    "Stats.C52_dt_none",
    "Stats.C52_dcauchy_none",
    "Stats.C52_dbern",
    "Stats.C52_dradem",
    "Stats.C52_dbinom",
    "Stats.C52_dpois",
    "Stats.C52_runif",
    "Stats.C52_rexp",
    "Stats.C52_rlaplace",
    "Stats.C52_rlogis",
    "Stats.C52_rweibull",
    "Stats.C52_rgamma",
    "Stats.C52_rnorm",
    "Stats.C52_rlnorm",
    "Stats.C52_rchisq",
    "Stats.C52_rbeta",
    "Stats.C52_rinvgauss",
    "Stats.C52_rnorm_zero",
    "Stats.C52_rcauchy_none",
    "Stats.C52_rinvgamma_partial",
    "Stats.C52_rinvgamma_mean_partial",
    "Stats.C52_rinvgamma_none_partial",
    "Stats.C52_rf",
    "Stats.C52_rf_mean",
    "Stats.C52_rf_none",
    "Stats.C52_rt",
    "Stats.C52_rt_mean",
    "Stats.C52_rt_none",
    "Stats.C52_rbern",
    "Stats.C52_rradem",
    "Stats.C52_rbinom",
    "Stats.C52_rpois",
    "Stats.C52_mean",
    "Stats.C52_var",
    "Stats.C52_var_violated",
    "Stats.C52_var_arma"
   ],
   "note": "All but: rinvgamma with a rate above 1/epsilon (NaN, C32_rinvgamma_violated); var() of a sample divides by n, so its expectation is (n-1)/n v (C52_var), v only with Armadillo (C52_var_arma)."
  },
  {
   "property": "C53",
   "status": "partial",
   "theorems": [
    "Stats.C53_pnorm_mu",
    "Stats.C53_plnorm_mu",
    "Stats.C53_pcauchy_mu",
    "Stats.C53_plaplace_mu",
    "Stats.C53_plogis_mu",
    "Stats.C53_pnorm_sigma",
    "Stats.C53_pcauchy_sigma",
    "Stats.C53_plogis_sigma",
    "Stats.C53_plaplace_sigma",
    "Stats.C53_pexp_rate",
    "Stats.C53_pgamma_scale",
    "Stats.C53_pweibull_scale",
    "Stats.C53_pbern",
    "Stats.C53_pradem",
    "Stats.C53_plnorm_sigma",
    "Stats.C53_punif_a",
    "Stats.C53_punif_b",
    "Stats.C53_pgamma_shape",
    "Stats.C53_pchisq",
    "Stats.C53_pbeta_a",
    "Stats.C53_pbeta_b",
    "Stats.C53_pinvgamma_shape_partial",
    "Stats.C53_pinvgamma_rate_partial",
    "Stats.C53_pinvgauss_mu",
    "Stats.C53_pweibull_shape",
    "Stats.C53_pt",
    "Stats.C53_pbinom_prob",
    "Stats.C53_pbinom_trials",
    "Stats.C53_ppois",
    "Stats.C53_qnorm_mu",
    "Stats.C53_qnorm_sigma",
    "Stats.C53_qcauchy_mu",
    "Stats.C53_qcauchy_sigma",
    "Stats.C53_qlogis_mu",
    "Stats.C53_qlogis_sigma",
    "Stats.C53_qlaplace_mu",
    "Stats.C53_qlaplace_sigma",
    "Stats.C53_qlnorm_mu",
    "Stats.C53_qlnorm_sigma",
    "Stats.C53_qunif_a",
    "Stats.C53_qunif_b",
    "Stats.C53_qexp",
    "Stats.C53_qgamma_shape",
    "Stats.C53_qgamma_scale",
    "Stats.C53_qchisq",
    "Stats.C53_qbeta_a",
    "Stats.C53_qbeta_b",
    "Stats.C53_qinvgamma_shape",
    "Stats.C53_qinvgamma_rate",
    "Stats.C53_qweibull_scale",
    "Stats.C53_qweibull_shape",
    "Stats.C53_qbern",
    "Stats.C53_qradem",
    "Stats.C53_qbinom_prob",
    "Stats.C53_qbinom_trials",
    "Stats.C53_qpois",
    "Stats.C53_rnorm_mu",
    "Stats.C53_rlnorm_mu",
    "Stats.C53_rcauchy_mu",
    "Stats.C53_rlaplace_mu",
    "Stats.C53_rlogis_mu",
    "Stats.C53_rexp",
    "Stats.C53_rweibull_scale",
    "Stats.C53_rbern",
    "Stats.C53_rradem",
    "Stats.C53_rbinom_prob",
    "Stats.C53_rpois",
    "Stats.C53_rgamma_scale",
    "Stats.C53_pinvgauss_lambda_cross",
    "Stats.C53_pinvgauss_lambda_not",
    "Stats.C53_pf_df1_cross",
    "Stats.C53_pf_df2_cross",
    "Stats.C53_pf_not"
   ],
   "note": "Not ordered, proved: pf in either number of degrees of freedom (C53_pf_not), pinvgauss in lambda (C53_pinvgauss_lambda_cross, every pair). Not covered: iterated quantiles qt and qinvgauss, draws of rt, rf, rbeta, rchisq, rinvgauss (their loops are not coupled across shapes); pinvgamma for rates above 1/eps is NaN."
  },
  {
   "property": "C54",
   "status": "partial",
   "theorems": [
    "Stats.C54_dnorm",
    "Stats.C54_dlaplace",
    "Stats.C54_dcauchy",
    "Stats.C54_dt",
    "Stats.C54_dexp_partial",
    "Stats.C54_dexp_violated",
    "Stats.C54_dunif",
    "Stats.C54_dnorm_peak",
    "Stats.C54_dcauchy_peak",
    "Stats.C54_dlaplace_peak",
    "Stats.C54_dlogis_peak",
    "Stats.C54_dt_peak",
    "Stats.C54_dlnorm_peak",
    "Stats.C54_dexp_peak",
    "Stats.C54_dgamma_peak",
    "Stats.C54_dchisq_peak",
    "Stats.C54_dinvgamma_peak",
    "Stats.C54_dinvgauss_peak",
    "Stats.C54_df_peak",
    "Stats.C54_dweibull_peak",
    "Stats.C54_dweibull_falls",
    "Stats.C54_dbeta_peak",
    "Stats.C54_dbeta_falls",
    "Stats.C54_dbeta_rises",
    "Stats.C54_dbeta_valley",
    "Stats.C54_dlogis",
    "Stats.C54_dlnorm",
    "Stats.C54_dgamma",
    "Stats.C54_dchisq",
    "Stats.C54_dinvgamma",
    "Stats.C54_dinvgauss",
    "Stats.C54_df_partial",
    "Stats.C54_df",
    "Stats.C54_dweibull_big",
    "Stats.C54_dweibull_small",
    "Stats.C54_dbeta",
    "Stats.C54_dbeta_left",
    "Stats.C54_dbeta_right",
    "Stats.C54_dbeta_flat",
    "Stats.C54_dpois",
    "Stats.C54_dbinom",
    "Stats.C54_dbern",
    "Stats.C54_dnorm_rounded",
    "Stats.C54_dlaplace_rounded",
    "Stats.C54_dexp_rounded_partial",
    "Stats.C54_dcauchy_rounded"
   ],
   "note": "Whole line for every family; dexp: real arguments only (log form at +inf is wrong, C54_dexp_violated); df at +inf for d1 < 2 or d2 < 1 is NaN (C43_df_x_violated); dweibull at shape 1 only inside the support (NaN at 0, C08_dweibull_zero_violated). Under rounding: norm, laplace, cauchy, t, exp, unif."
  },
  {
   "property": "C55",
   "status": "partial",
   "theorems": [
    "Stats.C55_runif",
    "Stats.C55_rnorm",
    "Stats.C55_rcauchy",
    "Stats.C55_rlaplace",
    "Stats.C55_rlogis",
    "Stats.C55_rexp",
    "Stats.C55_rweibull",
    "Stats.C55_rbern",
    "Stats.C55_rradem",
    "Stats.C55_rlnorm",
    "Stats.C55_rinvgauss",
    "Stats.C55_rpois",
    "Stats.C55_rbinom",
    "Stats.C55_rmvnorm",
    "Stats.C55_rmvnorm_n",
    "Stats.C55_rgamma_counter",
    "Stats.C55_rchisq_counter",
    "Stats.C55_rinvgamma_counter",
    "Stats.C55_rbeta_counter",
    "Stats.C55_rf_counter",
    "Stats.C55_rt_counter",
    "Stats.C55_rgamma",
    "Stats.C55_rgamma_tail",
    "Stats.C55_rchisq",
    "Stats.C55_rinvgamma_partial",
    "Stats.C55_rbeta",
    "Stats.C55_rf",
    "Stats.C55_rt",
    "Stats.C55_rwish",
    "Stats.C55_rinvwish",
    "Stats.C55_rgamma_violated",
    "Stats.C55_rchisq_violated",
    "Stats.C55_rt_violated",
    "Stats.C55_rf_violated",
    "Stats.C55_rbeta_violated"
   ],
   "note": "Fixed counts for every arithmetic and engine; averages and tails of the loops in exact arithmetic. rinvgamma only for rates up to 1/eps. An infinite shape or number of degrees of freedom passes the checks and never returns (violated)."
  },
  {
   "property": "C56",
   "status": "partial",
   "theorems": [
    "Stats.C56_dbinom",
    "Stats.C56_pbinom",
    "Stats.C56_qbinom_partial",
    "Stats.C56_dpois_partial",
    "Stats.C56_dpois_violated",
    "Stats.C56_ppois_partial",
    "Stats.C56_ppois_violated",
    "Stats.C56_qinvgauss",
    "Stats.C56_qpois_inf_violated",
    "Stats.C56_qpois",
    "Stats.C56_qpois_violated",
    "Stats.C56_qpois_partial",
    "Stats.C56_qbinom_violated"
   ],
   "note": "Every arithmetic and all arguments for dbinom, pbinom, qinvgauss; dpois, ppois, qbinom except the greatest integer (proved violations). qpois in exact arithmetic: defined exactly when its value is at most 2^63-2; in binary64 for rates up to 2^63-2^35 (C20_qpois_double_partial); violated for rates from 2^63+3 on and for an infinite rate."
  },
  {
   "property": "C57",
   "status": "proved",
   "theorems": [
    "Stats.C57_pbinom",
    "Stats.C57_qbinom",
    "Stats.C57_qinvgauss",
    "Stats.C57_ppois",
    "Stats.C57_qpois",
    "Stats.C57_qpois_large"
   ],
   "note": "Every arithmetic for pbinom, qbinom, ppois, qinvgauss; exact arithmetic for qpois. Constant overhead per call (checks, gcem) is not counted."
  },
  {
   "property": "C58",
   "status": "partial",
   "theorems": [
    "Stats.C58_openmp_partial",
    "Stats.C58_mean",
    "Stats.C58_runif",
    "Stats.C58_rexp",
    "Stats.C58_rnorm",
    "Stats.C58_rlnorm_partial",
    "Stats.C58_rcauchy",
    "Stats.C58_rlaplace",
    "Stats.C58_rlogis",
    "Stats.C58_rweibull_partial",
    "Stats.C58_rgamma_partial",
    "Stats.C58_rchisq_partial",
    "Stats.C58_rinvgamma_partial",
    "Stats.C58_rbeta",
    "Stats.C58_rf_partial",
    "Stats.C58_rt",
    "Stats.C58_rinvgauss",
    "Stats.C58_rbern",
    "Stats.C58_rradem",
    "Stats.C58_rbinom",
    "Stats.C58_rpois",
    "Stats.C58_rpois_small"
   ],
   "note": "All 19 scalar generators in exact arithmetic: a draw against pX, shares of a vector at one point (Hoeffding) and at all points at once, mean (Chebyshev). Vectors filled without OpenMP; with OpenMP only vectors too short for a parallel region. plnorm, pgamma, pchisq, pf, pweibull, pinvgamma only outside the zone where the argument counts as 0."
  },
  {
   "property": "C59",
   "status": "proved",
   "theorems": [
    "Stats.C59_rbern",
    "Stats.C59_rradem",
    "Stats.C59_rexp",
    "Stats.C59_rcauchy",
    "Stats.C59_rlaplace",
    "Stats.C59_rlogis",
    "Stats.C59_rweibull_partial",
    "Stats.C59_rpois",
    "Stats.C59_runif",
    "Stats.C59_rnorm",
    "Stats.C59_rlnorm_partial",
    "Stats.C59_rbinom",
    "Stats.C59_rexp_round",
    "Stats.C59_rlogis_round",
    "Stats.C59_rcauchy_round",
    "Stats.C59_rlaplace_round",
    "Stats.C59_rweibull_round_partial",
    "Stats.C59_rnorm_round",
    "Stats.C59_rlnorm_round",
    "Stats.C59_rweibull",
    "Stats.C59_rlnorm",
    "Stats.C59_rweibull_round",
    "Stats.C59_rpois_round"
   ],
   "note": "All generators named in the statement. C59_rweibull_partial, C59_rlnorm_partial and C59_rweibull_round_partial are the sharper or code-to-code variants (against pweibull and plnorm outside the zone where the argument counts as 0; shapes with an exact reciprocal); C59_rweibull, C59_rlnorm, C59_rweibull_round hold everywhere."
  },
  {
   "property": "C60",
   "status": "proved",
   "theorems": [
    "Stats.C60_rnorm_add",
    "Stats.C60_rnorm_total",
    "Stats.C60_rnorm_div",
    "Stats.C60_rnorm_sq",
    "Stats.C60_rlnorm_mul",
    "Stats.C60_rgamma_add",
    "Stats.C60_rchisq_add",
    "Stats.C60_rf_inv",
    "Stats.C60_rt_sq",
    "Stats.C60_rbeta_compl",
    "Stats.C60_rexp_total",
    "Stats.C60_rexp_sub",
    "Stats.C60_rexp_logratio",
    "Stats.C60_rexp_min",
    "Stats.C60_rweibull_min",
    "Stats.C60_rweibull_pow",
    "Stats.C60_rcauchy_add",
    "Stats.C60_rcauchy_mean",
    "Stats.C60_rpois_add",
    "Stats.C60_rbinom_add",
    "Stats.C60_rbern_total",
    "Stats.C60_rradem"
   ],
   "note": "Exact for normal and lognormal draws; the others up to a stated multiple of nextafter(0,1), exact arithmetic. Engine: fair and independent variates."
  },
  {
   "property": "C61",
   "status": "proved",
   "theorems": [
    "Stats.C61_rmvnorm_linear",
    "Stats.C61_rmvnorm_affine",
    "Stats.C61_rmvnorm_mahal",
    "Stats.C61_rmvnorm_add",
    "Stats.C61_rmvnorm_mean",
    "Stats.C61_rmvnorm_scatter",
    "Stats.C61_rwish_add",
    "Stats.C61_rwish_congr",
    "Stats.C61_rwish_quad",
    "Stats.C61_rwish_det",
    "Stats.C61_rinvwish_inv"
   ],
   "note": "laws of linear and affine images, distances, sums, means and scatter matrices of rmvnorm (exact), of sums, congruences, quadratic forms and determinants of rwish and of inverses of rinvwish (up to K*7*nextafter(0,1)); all dimensions; the covariance given as matrix (Armadillo, Eigen) or factor (every library)"
  },
  {
   "property": "C62",
   "status": "partial",
   "theorems": [
    "Stats.C62_mean",
    "Stats.C62_mean_var",
    "Stats.C62_z",
    "Stats.C62_t",
    "Stats.C62_chisq",
    "Stats.C62_z_test",
    "Stats.C62_t_test",
    "Stats.C62_chisq_test",
    "Stats.C62_f",
    "Stats.C62_t2",
    "Stats.C62_t2_test",
    "Stats.C62_f_test",
    "Stats.C62_z_interval",
    "Stats.C62_chisq_interval",
    "Stats.C62_t_interval_partial",
    "Stats.C62_hotelling",
    "Stats.C62_hotelling_test",
    "Stats.C62_t_interval_large"
   ],
   "note": "Laws of mean, z, t, chi-squared, F, pooled t and Hotelling's statistics of generated samples, uniform p-values, coverage of the intervals. Partial: the t interval has exactly the stated coverage only for n = 2, 3, where qt is exact; for large n up to an error of order n^-4 (C62_t_interval_large)."
  },
  {
   "property": "C63",
   "status": "proved",
   "theorems": [
    "Stats.C63_qt_deep",
    "Stats.C63_qt_order",
    "Stats.C63_qt_value",
    "Stats.C63_coef_d",
    "Stats.C63_qt_expansion",
    "Stats.C63_qt_start"
   ],
   "note": "Exact arithmetic. Lower tail for every dof >= 1; fixed p and growing dof on both sides of 1/2; the coefficients of the expansion (C63_qt_expansion), d (C63_coef_d, explicit constant) and the start of the tail branch (C63_qt_start). The other bounds are asymptotic: no explicit thresholds."
  },
  {
   "property": "C64",
   "status": "partial",
   "theorems": [
    "Stats.C64_partial",
    "Stats.C64_int_stops",
    "Stats.C64_int_mode",
    "Stats.C64_int_value",
    "Stats.C64_violated"
   ],
   "note": "C64_partial: with the floating overload the function is the qinvgauss of the other properties, for every arithmetic. Violated: with int abs(int), which the included headers may provide alone, the first residual truncates to 0 and the mode is returned for every probability."
  },
  {
   "property": "C65",
   "status": "partial",
   "theorems": [
    "Stats.Vec.C65_dens",
    "Stats.Vec.C65_one_thread_partial",
    "Stats.Vec.C65_race_violated",
    "Stats.Vec.C65_duplicate_violated"
   ],
   "note": "Densities in full. Generators violate the claim: the lambda captures the engine by reference, so with two threads every complete execution has a data race, and some executions return equal draws; with one thread the elements are the successive draws (C65_one_thread_partial)."
  },
  {
   "property": "C66",
   "status": "partial",
   "theorems": [
    "Stats.C66_gamma_pois_partial",
    "Stats.C66_gamma_exp_partial",
    "Stats.C66_gamma_gamma_partial",
    "Stats.C66_gamma_invgamma_partial",
    "Stats.C66_gamma_invgauss_partial",
    "Stats.C66_invgamma_norm",
    "Stats.C66_invgamma_lnorm",
    "Stats.C66_invgamma_exp",
    "Stats.C66_invgamma_gamma_partial",
    "Stats.C66_invgamma_laplace",
    "Stats.C66_invgamma_weibull_partial",
    "Stats.C66_beta_binom",
    "Stats.C66_beta_bern",
    "Stats.C66_beta_radem",
    "Stats.C66_norm_norm",
    "Stats.C66_norm_lnorm",
    "Stats.C66_gamma_pois_violated",
    "Stats.C66_invwish_mvnorm",
    "Stats.C66_wish_mvnorm",
    "Stats.C66_mvnorm_mvnorm"
   ],
   "note": "Bayes' rule for 19 conjugate pairs and samples of any length, plain and log form, exact arithmetic. Missing: gamma posteriors whose scale is below eps, which dgamma rejects (C66_gamma_pois_violated); gamma/Weibull likelihoods at scales below eps."
  },
  {
   "property": "C67",
   "status": "proved",
   "theorems": [
    "Stats.C67_norm_norm",
    "Stats.C67_norm_invgamma_t",
    "Stats.C67_norm_chisq_t",
    "Stats.C67_exp_gamma_f",
    "Stats.C67_invgamma_gamma_f",
    "Stats.C67_norm_exp_laplace",
    "Stats.C67_norm_conv",
    "Stats.C67_gamma_conv",
    "Stats.C67_chisq_conv",
    "Stats.C67_pois_thinning",
    "Stats.C67_pois_conv",
    "Stats.C67_binom_conv"
   ],
   "note": "Six mixtures and six convolutions, exact arithmetic; parameters in the range the sanity checks accept (scales and degrees of freedom at least eps)."
  },
  {
   "property": "C68",
   "status": "proved",
   "theorems": [
    "Stats.C68_rnorm_rnorm",
    "Stats.C68_rnorm_rlnorm",
    "Stats.C68_rinvgamma_rnorm",
    "Stats.C68_rchisq_rnorm",
    "Stats.C68_rexp_rnorm",
    "Stats.C68_rgamma_rexp",
    "Stats.C68_rbeta_rbinom",
    "Stats.C68_rpois_rbinom",
    "Stats.C68_rbinom_rbinom",
    "Stats.C68_rbern_rnorm"
   ],
   "note": "All listed pairs, for every event and every fair engine. The error is the stated multiple of nextafter(0,1) in the probability of an event (0 for normal pairs)."
  },
  {
   "property": "C69",
   "status": "proved",
   "theorems": [
    "Stats.C69_norm",
    "Stats.C69_lnorm",
    "Stats.C69_laplace",
    "Stats.C69_exp",
    "Stats.C69_gamma",
    "Stats.C69_invgamma",
    "Stats.C69_weibull",
    "Stats.C69_invgauss",
    "Stats.C69_pois",
    "Stats.C69_binom",
    "Stats.C69_bern",
    "Stats.C69_radem",
    "Stats.C69_norm_arma_violated"
   ],
   "note": "Twelve families, both forms, exact arithmetic; strict maximum, so the estimate is unique. Gamma and Weibull: estimates that dgamma and dweibull accept (at least eps). C69_norm_arma_violated belongs to the statement: with Armadillo var divides by n-1."
  },
  {
   "property": "C70",
   "status": "proved",
   "theorems": [
    "Stats.C70_norm",
    "Stats.C70_lnorm",
    "Stats.C70_laplace",
    "Stats.C70_logis",
    "Stats.C70_exp",
    "Stats.C70_gamma",
    "Stats.C70_chisq",
    "Stats.C70_beta",
    "Stats.C70_invgamma",
    "Stats.C70_invgauss",
    "Stats.C70_weibull",
    "Stats.C70_bern",
    "Stats.C70_radem",
    "Stats.C70_binom",
    "Stats.C70_pois",
    "Stats.C70_cauchy_not"
   ],
   "note": "Exact arithmetic. dgamma and dweibull with scales at least the library's epsilon (smaller ones are replaced by the code). C70_cauchy_not: the Cauchy family has no monotone ratio."
  },
  {
   "property": "C71",
   "status": "proved",
   "theorems": [
    "Stats.C71_norm",
    "Stats.C71_laplace",
    "Stats.C71_logis",
    "Stats.C71_exp",
    "Stats.C71_unif",
    "Stats.C71_gamma",
    "Stats.C71_chisq",
    "Stats.C71_beta",
    "Stats.C71_weibull",
    "Stats.C71_pois",
    "Stats.C71_binom",
    "Stats.C71_gamma_not"
   ],
   "note": "Exact arithmetic. Shapes at least 1 where needed; C71_gamma_not shows that the restriction is needed."
  },
  {
   "property": "C72",
   "status": "proved",
   "theorems": [
    "Stats.C72_norm_order",
    "Stats.C72_lnorm_order",
    "Stats.C72_laplace_order",
    "Stats.C72_logis_order",
    "Stats.C72_exp_order",
    "Stats.C72_gamma_order",
    "Stats.C72_chisq_order",
    "Stats.C72_beta_order",
    "Stats.C72_invgauss_order",
    "Stats.C72_invgamma_order",
    "Stats.C72_weibull_order",
    "Stats.C72_norm_mono",
    "Stats.C72_laplace_mono",
    "Stats.C72_logis_mono",
    "Stats.C72_unif_mono",
    "Stats.C72_gamma_mono",
    "Stats.C72_chisq_mono",
    "Stats.C72_beta_mono",
    "Stats.C72_weibull_mono",
    "Stats.C72_exp_rate",
    "Stats.C72_exp_memoryless",
    "Stats.C72_weibull_rate",
    "Stats.C72_logis_rate",
    "Stats.C72_unif_rate",
    "Stats.C72_laplace_rate"
   ],
   "note": "Exact arithmetic, outside the cut-off zones of the code (x below epsilon for plnorm, pgamma, pchisq, pweibull; x above 1/epsilon for pinvgamma)."
  },
  {
   "property": "C73",
   "status": "proved",
   "theorems": [
    "Stats.C73_norm",
    "Stats.C73_lnorm",
    "Stats.C73_exp",
    "Stats.C73_unif",
    "Stats.C73_gamma",
    "Stats.C73_invgamma",
    "Stats.C73_weibull",
    "Stats.C73_invgauss",
    "Stats.C73_laplace",
    "Stats.C73_pois",
    "Stats.C73_binom",
    "Stats.C73_bern",
    "Stats.C73_radem"
   ],
   "note": "every pair of members listed in the statement; exact arithmetic"
  }
 ]
}
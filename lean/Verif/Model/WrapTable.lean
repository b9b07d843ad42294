import Mathlib.Data.List.Nodup

/-!
# Vector and matrix overloads: what each passes on

Every overload of the univariate functions for a container is one macro call. The table below lists them all: the
overload, its parameters in order, the macro (misc/internal_fns/statslib_defs.hpp), the function named in the macro call
and the parameters passed on. The container parameters (`x`, `X`, `n`, `k`, `vals_in`, `vals_out`, `num_elem`) are left
out, because the macros use them by name; the engine, always the last parameter, is in columns of its own.
-/

namespace Stats.Wrap

inductive Kind | d | p | q | r
  deriving DecidableEq

inductive Fam
  | bern | beta | binom | cauchy | chisq | exp | f | gamma | invgamma | invgauss | laplace | lnorm | logis | norm | pois
  | radem | t | unif | weibull
  deriving DecidableEq

/-- `scalar`: the public name `dnorm` (also of its container overloads); `vec`: `internal::dnorm_vec`; `matCheck`:
`internal::rnorm_mat_check` -/
inductive Suffix | scalar | vec | matCheck
  deriving DecidableEq

structure Name where
  kind : Kind
  fam : Fam
  suffix : Suffix
  deriving DecidableEq

/-- parameter names, without `_par` -/
inductive Par
  | prob | a | b | df1 | df2 | dof | lambda | logForm | mu | nTrials | rate | scale | shape | sigma
  deriving DecidableEq

/-- an argument of a macro call: a parameter, or `sT(n)` -/
inductive Arg
  | par (p : Par)
  | const (n : ℕ)
  deriving DecidableEq

/-- the last parameter of a generator: `rand_engine_t&`, or `seed_val`, from which the body makes an engine -/
inductive Eng | engine | seed
  deriving DecidableEq

inductive Macro
  | evalVec | stdvecDist | armaDist | blazeDist | eigenDist | randVec | stdvecRand | mainMat | genMat
  deriving DecidableEq

structure Row where
  fn : Name
  params : List Par
  eng : Option Eng
  mac : Macro
  callee : Name
  args : List Arg
  passEng : Bool
  src : String

/-- {dens,prob,quant,rand}/*.ipp, every vector and matrix overload of a univariate function, and the `internal` functions
they go through -/
def table : List Row := [
  ⟨⟨.d, .bern, .vec⟩, [.prob, .logForm], none, .evalVec, ⟨.d, .bern, .scalar⟩, [.par .prob, .par .logForm], false,
    "dens/dbern.ipp:78-82"⟩,
  ⟨⟨.d, .bern, .scalar⟩, [.prob, .logForm], none, .stdvecDist, ⟨.d, .bern, .vec⟩, [.par .prob, .par .logForm], false,
    "dens/dbern.ipp:91-94"⟩,
  ⟨⟨.d, .bern, .scalar⟩, [.prob, .logForm], none, .armaDist, ⟨.d, .bern, .vec⟩, [.par .prob, .par .logForm], false,
    "dens/dbern.ipp:101-104"⟩,
  ⟨⟨.d, .bern, .scalar⟩, [.prob, .logForm], none, .blazeDist, ⟨.d, .bern, .scalar⟩, [.par .prob, .par .logForm], false,
    "dens/dbern.ipp:119-122"⟩,
  ⟨⟨.d, .bern, .scalar⟩, [.prob, .logForm], none, .eigenDist, ⟨.d, .bern, .vec⟩, [.par .prob, .par .logForm], false,
    "dens/dbern.ipp:129-132"⟩,
  ⟨⟨.d, .beta, .vec⟩, [.a, .b, .logForm], none, .evalVec, ⟨.d, .beta, .scalar⟩, [.par .a, .par .b, .par .logForm], false,
    "dens/dbeta.ipp:129-133"⟩,
  ⟨⟨.d, .beta, .scalar⟩, [.a, .b, .logForm], none, .stdvecDist, ⟨.d, .beta, .vec⟩, [.par .a, .par .b, .par .logForm], false,
    "dens/dbeta.ipp:142-145"⟩,
  ⟨⟨.d, .beta, .scalar⟩, [.a, .b, .logForm], none, .armaDist, ⟨.d, .beta, .vec⟩, [.par .a, .par .b, .par .logForm], false,
    "dens/dbeta.ipp:152-155"⟩,
  ⟨⟨.d, .beta, .scalar⟩, [.a, .b, .logForm], none, .blazeDist, ⟨.d, .beta, .scalar⟩, [.par .a, .par .b, .par .logForm], false,
    "dens/dbeta.ipp:170-173"⟩,
  ⟨⟨.d, .beta, .scalar⟩, [.a, .b, .logForm], none, .eigenDist, ⟨.d, .beta, .vec⟩, [.par .a, .par .b, .par .logForm], false,
    "dens/dbeta.ipp:180-183"⟩,
  ⟨⟨.d, .binom, .vec⟩, [.nTrials, .prob, .logForm], none, .evalVec, ⟨.d, .binom, .scalar⟩, [.par .nTrials, .par .prob, .par .logForm], false,
    "dens/dbinom.ipp:103-107"⟩,
  ⟨⟨.d, .binom, .scalar⟩, [.nTrials, .prob, .logForm], none, .stdvecDist, ⟨.d, .binom, .vec⟩, [.par .nTrials, .par .prob, .par .logForm], false,
    "dens/dbinom.ipp:116-119"⟩,
  ⟨⟨.d, .binom, .scalar⟩, [.nTrials, .prob, .logForm], none, .armaDist, ⟨.d, .binom, .vec⟩, [.par .nTrials, .par .prob, .par .logForm], false,
    "dens/dbinom.ipp:126-129"⟩,
  ⟨⟨.d, .binom, .scalar⟩, [.nTrials, .prob, .logForm], none, .blazeDist, ⟨.d, .binom, .scalar⟩, [.par .nTrials, .par .prob, .par .logForm], false,
    "dens/dbinom.ipp:144-147"⟩,
  ⟨⟨.d, .binom, .scalar⟩, [.nTrials, .prob, .logForm], none, .eigenDist, ⟨.d, .binom, .vec⟩, [.par .nTrials, .par .prob, .par .logForm], false,
    "dens/dbinom.ipp:154-157"⟩,
  ⟨⟨.d, .cauchy, .vec⟩, [.mu, .sigma, .logForm], none, .evalVec, ⟨.d, .cauchy, .scalar⟩, [.par .mu, .par .sigma, .par .logForm], false,
    "dens/dcauchy.ipp:109-113"⟩,
  ⟨⟨.d, .cauchy, .scalar⟩, [.mu, .sigma, .logForm], none, .stdvecDist, ⟨.d, .cauchy, .vec⟩, [.par .mu, .par .sigma, .par .logForm], false,
    "dens/dcauchy.ipp:122-125"⟩,
  ⟨⟨.d, .cauchy, .scalar⟩, [.mu, .sigma, .logForm], none, .armaDist, ⟨.d, .cauchy, .vec⟩, [.par .mu, .par .sigma, .par .logForm], false,
    "dens/dcauchy.ipp:132-135"⟩,
  ⟨⟨.d, .cauchy, .scalar⟩, [.mu, .sigma, .logForm], none, .blazeDist, ⟨.d, .cauchy, .scalar⟩, [.par .mu, .par .sigma, .par .logForm], false,
    "dens/dcauchy.ipp:150-153"⟩,
  ⟨⟨.d, .cauchy, .scalar⟩, [.mu, .sigma, .logForm], none, .eigenDist, ⟨.d, .cauchy, .vec⟩, [.par .mu, .par .sigma, .par .logForm], false,
    "dens/dcauchy.ipp:160-163"⟩,
  ⟨⟨.d, .chisq, .vec⟩, [.dof, .logForm], none, .evalVec, ⟨.d, .chisq, .scalar⟩, [.par .dof, .par .logForm], false,
    "dens/dchisq.ipp:106-110"⟩,
  ⟨⟨.d, .chisq, .scalar⟩, [.dof, .logForm], none, .stdvecDist, ⟨.d, .chisq, .vec⟩, [.par .dof, .par .logForm], false,
    "dens/dchisq.ipp:119-122"⟩,
  ⟨⟨.d, .chisq, .scalar⟩, [.dof, .logForm], none, .armaDist, ⟨.d, .chisq, .vec⟩, [.par .dof, .par .logForm], false,
    "dens/dchisq.ipp:129-132"⟩,
  ⟨⟨.d, .chisq, .scalar⟩, [.dof, .logForm], none, .blazeDist, ⟨.d, .chisq, .scalar⟩, [.par .dof, .par .logForm], false,
    "dens/dchisq.ipp:147-150"⟩,
  ⟨⟨.d, .chisq, .scalar⟩, [.dof, .logForm], none, .eigenDist, ⟨.d, .chisq, .vec⟩, [.par .dof, .par .logForm], false,
    "dens/dchisq.ipp:157-160"⟩,
  ⟨⟨.d, .exp, .vec⟩, [.rate, .logForm], none, .evalVec, ⟨.d, .exp, .scalar⟩, [.par .rate, .par .logForm], false,
    "dens/dexp.ipp:92-96"⟩,
  ⟨⟨.d, .exp, .scalar⟩, [.rate, .logForm], none, .stdvecDist, ⟨.d, .exp, .vec⟩, [.par .rate, .par .logForm], false,
    "dens/dexp.ipp:105-108"⟩,
  ⟨⟨.d, .exp, .scalar⟩, [.rate, .logForm], none, .armaDist, ⟨.d, .exp, .vec⟩, [.par .rate, .par .logForm], false,
    "dens/dexp.ipp:115-118"⟩,
  ⟨⟨.d, .exp, .scalar⟩, [.rate, .logForm], none, .blazeDist, ⟨.d, .exp, .scalar⟩, [.par .rate, .par .logForm], false,
    "dens/dexp.ipp:133-136"⟩,
  ⟨⟨.d, .exp, .scalar⟩, [.rate, .logForm], none, .eigenDist, ⟨.d, .exp, .vec⟩, [.par .rate, .par .logForm], false,
    "dens/dexp.ipp:143-146"⟩,
  ⟨⟨.d, .f, .vec⟩, [.df1, .df2, .logForm], none, .evalVec, ⟨.d, .f, .scalar⟩, [.par .df1, .par .df2, .par .logForm], false,
    "dens/df.ipp:164-168"⟩,
  ⟨⟨.d, .f, .scalar⟩, [.df1, .df2, .logForm], none, .stdvecDist, ⟨.d, .f, .vec⟩, [.par .df1, .par .df2, .par .logForm], false,
    "dens/df.ipp:177-180"⟩,
  ⟨⟨.d, .f, .scalar⟩, [.df1, .df2, .logForm], none, .armaDist, ⟨.d, .f, .vec⟩, [.par .df1, .par .df2, .par .logForm], false,
    "dens/df.ipp:187-190"⟩,
  ⟨⟨.d, .f, .scalar⟩, [.df1, .df2, .logForm], none, .blazeDist, ⟨.d, .f, .scalar⟩, [.par .df1, .par .df2, .par .logForm], false,
    "dens/df.ipp:205-208"⟩,
  ⟨⟨.d, .f, .scalar⟩, [.df1, .df2, .logForm], none, .eigenDist, ⟨.d, .f, .vec⟩, [.par .df1, .par .df2, .par .logForm], false,
    "dens/df.ipp:215-218"⟩,
  ⟨⟨.d, .gamma, .vec⟩, [.shape, .scale, .logForm], none, .evalVec, ⟨.d, .gamma, .scalar⟩, [.par .shape, .par .scale, .par .logForm], false,
    "dens/dgamma.ipp:112-116"⟩,
  ⟨⟨.d, .gamma, .scalar⟩, [.shape, .scale, .logForm], none, .stdvecDist, ⟨.d, .gamma, .vec⟩, [.par .shape, .par .scale, .par .logForm], false,
    "dens/dgamma.ipp:125-128"⟩,
  ⟨⟨.d, .gamma, .scalar⟩, [.shape, .scale, .logForm], none, .armaDist, ⟨.d, .gamma, .vec⟩, [.par .shape, .par .scale, .par .logForm], false,
    "dens/dgamma.ipp:135-138"⟩,
  ⟨⟨.d, .gamma, .scalar⟩, [.shape, .scale, .logForm], none, .blazeDist, ⟨.d, .gamma, .scalar⟩, [.par .shape, .par .scale, .par .logForm], false,
    "dens/dgamma.ipp:153-156"⟩,
  ⟨⟨.d, .gamma, .scalar⟩, [.shape, .scale, .logForm], none, .eigenDist, ⟨.d, .gamma, .vec⟩, [.par .shape, .par .scale, .par .logForm], false,
    "dens/dgamma.ipp:163-166"⟩,
  ⟨⟨.d, .invgamma, .vec⟩, [.shape, .rate, .logForm], none, .evalVec, ⟨.d, .invgamma, .scalar⟩, [.par .shape, .par .rate, .par .logForm], false,
    "dens/dinvgamma.ipp:112-116"⟩,
  ⟨⟨.d, .invgamma, .scalar⟩, [.shape, .rate, .logForm], none, .stdvecDist, ⟨.d, .invgamma, .vec⟩, [.par .shape, .par .rate, .par .logForm], false,
    "dens/dinvgamma.ipp:125-128"⟩,
  ⟨⟨.d, .invgamma, .scalar⟩, [.shape, .rate, .logForm], none, .armaDist, ⟨.d, .invgamma, .vec⟩, [.par .shape, .par .rate, .par .logForm], false,
    "dens/dinvgamma.ipp:135-138"⟩,
  ⟨⟨.d, .invgamma, .scalar⟩, [.shape, .rate, .logForm], none, .blazeDist, ⟨.d, .invgamma, .scalar⟩, [.par .shape, .par .rate, .par .logForm], false,
    "dens/dinvgamma.ipp:153-156"⟩,
  ⟨⟨.d, .invgamma, .scalar⟩, [.shape, .rate, .logForm], none, .eigenDist, ⟨.d, .invgamma, .vec⟩, [.par .shape, .par .rate, .par .logForm], false,
    "dens/dinvgamma.ipp:163-166"⟩,
  ⟨⟨.d, .invgauss, .vec⟩, [.mu, .lambda, .logForm], none, .evalVec, ⟨.d, .invgauss, .scalar⟩, [.par .mu, .par .lambda, .par .logForm], false,
    "dens/dinvgauss.ipp:133-137"⟩,
  ⟨⟨.d, .invgauss, .scalar⟩, [.mu, .lambda, .logForm], none, .stdvecDist, ⟨.d, .invgauss, .vec⟩, [.par .mu, .par .lambda, .par .logForm], false,
    "dens/dinvgauss.ipp:146-149"⟩,
  ⟨⟨.d, .invgauss, .scalar⟩, [.mu, .lambda, .logForm], none, .armaDist, ⟨.d, .invgauss, .vec⟩, [.par .mu, .par .lambda, .par .logForm], false,
    "dens/dinvgauss.ipp:156-159"⟩,
  ⟨⟨.d, .invgauss, .scalar⟩, [.mu, .lambda, .logForm], none, .blazeDist, ⟨.d, .invgauss, .scalar⟩, [.par .mu, .par .lambda, .par .logForm], false,
    "dens/dinvgauss.ipp:174-177"⟩,
  ⟨⟨.d, .invgauss, .scalar⟩, [.mu, .lambda, .logForm], none, .eigenDist, ⟨.d, .invgauss, .vec⟩, [.par .mu, .par .lambda, .par .logForm], false,
    "dens/dinvgauss.ipp:184-187"⟩,
  ⟨⟨.d, .laplace, .vec⟩, [.mu, .sigma, .logForm], none, .evalVec, ⟨.d, .laplace, .scalar⟩, [.par .mu, .par .sigma, .par .logForm], false,
    "dens/dlaplace.ipp:110-114"⟩,
  ⟨⟨.d, .laplace, .scalar⟩, [.mu, .sigma, .logForm], none, .stdvecDist, ⟨.d, .laplace, .vec⟩, [.par .mu, .par .sigma, .par .logForm], false,
    "dens/dlaplace.ipp:123-126"⟩,
  ⟨⟨.d, .laplace, .scalar⟩, [.mu, .sigma, .logForm], none, .armaDist, ⟨.d, .laplace, .vec⟩, [.par .mu, .par .sigma, .par .logForm], false,
    "dens/dlaplace.ipp:133-136"⟩,
  ⟨⟨.d, .laplace, .scalar⟩, [.mu, .sigma, .logForm], none, .blazeDist, ⟨.d, .laplace, .scalar⟩, [.par .mu, .par .sigma, .par .logForm], false,
    "dens/dlaplace.ipp:151-154"⟩,
  ⟨⟨.d, .laplace, .scalar⟩, [.mu, .sigma, .logForm], none, .eigenDist, ⟨.d, .laplace, .vec⟩, [.par .mu, .par .sigma, .par .logForm], false,
    "dens/dlaplace.ipp:161-164"⟩,
  ⟨⟨.d, .lnorm, .vec⟩, [.mu, .sigma, .logForm], none, .evalVec, ⟨.d, .lnorm, .scalar⟩, [.par .mu, .par .sigma, .par .logForm], false,
    "dens/dlnorm.ipp:112-116"⟩,
  ⟨⟨.d, .lnorm, .scalar⟩, [.mu, .sigma, .logForm], none, .stdvecDist, ⟨.d, .lnorm, .vec⟩, [.par .mu, .par .sigma, .par .logForm], false,
    "dens/dlnorm.ipp:125-128"⟩,
  ⟨⟨.d, .lnorm, .scalar⟩, [.mu, .sigma, .logForm], none, .armaDist, ⟨.d, .lnorm, .vec⟩, [.par .mu, .par .sigma, .par .logForm], false,
    "dens/dlnorm.ipp:135-138"⟩,
  ⟨⟨.d, .lnorm, .scalar⟩, [.mu, .sigma, .logForm], none, .blazeDist, ⟨.d, .lnorm, .scalar⟩, [.par .mu, .par .sigma, .par .logForm], false,
    "dens/dlnorm.ipp:153-156"⟩,
  ⟨⟨.d, .lnorm, .scalar⟩, [.mu, .sigma, .logForm], none, .eigenDist, ⟨.d, .lnorm, .vec⟩, [.par .mu, .par .sigma, .par .logForm], false,
    "dens/dlnorm.ipp:163-166"⟩,
  ⟨⟨.d, .logis, .vec⟩, [.mu, .sigma, .logForm], none, .evalVec, ⟨.d, .logis, .scalar⟩, [.par .mu, .par .sigma, .par .logForm], false,
    "dens/dlogis.ipp:105-109"⟩,
  ⟨⟨.d, .logis, .scalar⟩, [.mu, .sigma, .logForm], none, .stdvecDist, ⟨.d, .logis, .vec⟩, [.par .mu, .par .sigma, .par .logForm], false,
    "dens/dlogis.ipp:118-121"⟩,
  ⟨⟨.d, .logis, .scalar⟩, [.mu, .sigma, .logForm], none, .armaDist, ⟨.d, .logis, .vec⟩, [.par .mu, .par .sigma, .par .logForm], false,
    "dens/dlogis.ipp:128-131"⟩,
  ⟨⟨.d, .logis, .scalar⟩, [.mu, .sigma, .logForm], none, .blazeDist, ⟨.d, .logis, .scalar⟩, [.par .mu, .par .sigma, .par .logForm], false,
    "dens/dlogis.ipp:146-149"⟩,
  ⟨⟨.d, .logis, .scalar⟩, [.mu, .sigma, .logForm], none, .eigenDist, ⟨.d, .logis, .vec⟩, [.par .mu, .par .sigma, .par .logForm], false,
    "dens/dlogis.ipp:156-159"⟩,
  ⟨⟨.d, .norm, .vec⟩, [.mu, .sigma, .logForm], none, .evalVec, ⟨.d, .norm, .scalar⟩, [.par .mu, .par .sigma, .par .logForm], false,
    "dens/dnorm.ipp:119-123"⟩,
  ⟨⟨.d, .norm, .scalar⟩, [.mu, .sigma, .logForm], none, .stdvecDist, ⟨.d, .norm, .vec⟩, [.par .mu, .par .sigma, .par .logForm], false,
    "dens/dnorm.ipp:132-135"⟩,
  ⟨⟨.d, .norm, .scalar⟩, [.mu, .sigma, .logForm], none, .armaDist, ⟨.d, .norm, .vec⟩, [.par .mu, .par .sigma, .par .logForm], false,
    "dens/dnorm.ipp:142-145"⟩,
  ⟨⟨.d, .norm, .scalar⟩, [.mu, .sigma, .logForm], none, .blazeDist, ⟨.d, .norm, .scalar⟩, [.par .mu, .par .sigma, .par .logForm], false,
    "dens/dnorm.ipp:160-163"⟩,
  ⟨⟨.d, .norm, .scalar⟩, [.mu, .sigma, .logForm], none, .eigenDist, ⟨.d, .norm, .vec⟩, [.par .mu, .par .sigma, .par .logForm], false,
    "dens/dnorm.ipp:170-173"⟩,
  ⟨⟨.d, .pois, .vec⟩, [.rate, .logForm], none, .evalVec, ⟨.d, .pois, .scalar⟩, [.par .rate, .par .logForm], false,
    "dens/dpois.ipp:84-88"⟩,
  ⟨⟨.d, .pois, .scalar⟩, [.rate, .logForm], none, .stdvecDist, ⟨.d, .pois, .vec⟩, [.par .rate, .par .logForm], false,
    "dens/dpois.ipp:97-100"⟩,
  ⟨⟨.d, .pois, .scalar⟩, [.rate, .logForm], none, .armaDist, ⟨.d, .pois, .vec⟩, [.par .rate, .par .logForm], false,
    "dens/dpois.ipp:107-110"⟩,
  ⟨⟨.d, .pois, .scalar⟩, [.rate, .logForm], none, .blazeDist, ⟨.d, .pois, .scalar⟩, [.par .rate, .par .logForm], false,
    "dens/dpois.ipp:125-128"⟩,
  ⟨⟨.d, .pois, .scalar⟩, [.rate, .logForm], none, .eigenDist, ⟨.d, .pois, .vec⟩, [.par .rate, .par .logForm], false,
    "dens/dpois.ipp:135-138"⟩,
  ⟨⟨.d, .radem, .vec⟩, [.prob, .logForm], none, .evalVec, ⟨.d, .radem, .scalar⟩, [.par .prob, .par .logForm], false,
    "dens/dradem.ipp:78-82"⟩,
  ⟨⟨.d, .radem, .scalar⟩, [.prob, .logForm], none, .stdvecDist, ⟨.d, .radem, .vec⟩, [.par .prob, .par .logForm], false,
    "dens/dradem.ipp:91-94"⟩,
  ⟨⟨.d, .radem, .scalar⟩, [.prob, .logForm], none, .armaDist, ⟨.d, .radem, .vec⟩, [.par .prob, .par .logForm], false,
    "dens/dradem.ipp:101-104"⟩,
  ⟨⟨.d, .radem, .scalar⟩, [.prob, .logForm], none, .blazeDist, ⟨.d, .radem, .scalar⟩, [.par .prob, .par .logForm], false,
    "dens/dradem.ipp:119-122"⟩,
  ⟨⟨.d, .radem, .scalar⟩, [.prob, .logForm], none, .eigenDist, ⟨.d, .radem, .vec⟩, [.par .prob, .par .logForm], false,
    "dens/dradem.ipp:129-132"⟩,
  ⟨⟨.d, .t, .vec⟩, [.dof, .logForm], none, .evalVec, ⟨.d, .t, .scalar⟩, [.par .dof, .par .logForm], false,
    "dens/dt.ipp:108-112"⟩,
  ⟨⟨.d, .t, .scalar⟩, [.dof, .logForm], none, .stdvecDist, ⟨.d, .t, .vec⟩, [.par .dof, .par .logForm], false,
    "dens/dt.ipp:121-124"⟩,
  ⟨⟨.d, .t, .scalar⟩, [.dof, .logForm], none, .armaDist, ⟨.d, .t, .vec⟩, [.par .dof, .par .logForm], false,
    "dens/dt.ipp:131-134"⟩,
  ⟨⟨.d, .t, .scalar⟩, [.dof, .logForm], none, .blazeDist, ⟨.d, .t, .scalar⟩, [.par .dof, .par .logForm], false,
    "dens/dt.ipp:149-152"⟩,
  ⟨⟨.d, .t, .scalar⟩, [.dof, .logForm], none, .eigenDist, ⟨.d, .t, .vec⟩, [.par .dof, .par .logForm], false,
    "dens/dt.ipp:159-162"⟩,
  ⟨⟨.d, .unif, .vec⟩, [.a, .b, .logForm], none, .evalVec, ⟨.d, .unif, .scalar⟩, [.par .a, .par .b, .par .logForm], false,
    "dens/dunif.ipp:101-105"⟩,
  ⟨⟨.d, .unif, .scalar⟩, [.a, .b, .logForm], none, .stdvecDist, ⟨.d, .unif, .vec⟩, [.par .a, .par .b, .par .logForm], false,
    "dens/dunif.ipp:114-117"⟩,
  ⟨⟨.d, .unif, .scalar⟩, [.a, .b, .logForm], none, .armaDist, ⟨.d, .unif, .vec⟩, [.par .a, .par .b, .par .logForm], false,
    "dens/dunif.ipp:124-127"⟩,
  ⟨⟨.d, .unif, .scalar⟩, [.a, .b, .logForm], none, .blazeDist, ⟨.d, .unif, .scalar⟩, [.par .a, .par .b, .par .logForm], false,
    "dens/dunif.ipp:142-145"⟩,
  ⟨⟨.d, .unif, .scalar⟩, [.a, .b, .logForm], none, .eigenDist, ⟨.d, .unif, .vec⟩, [.par .a, .par .b, .par .logForm], false,
    "dens/dunif.ipp:152-155"⟩,
  ⟨⟨.d, .weibull, .vec⟩, [.shape, .scale, .logForm], none, .evalVec, ⟨.d, .weibull, .scalar⟩, [.par .shape, .par .scale, .par .logForm], false,
    "dens/dweibull.ipp:92-96"⟩,
  ⟨⟨.d, .weibull, .scalar⟩, [.shape, .scale, .logForm], none, .stdvecDist, ⟨.d, .weibull, .vec⟩, [.par .shape, .par .scale, .par .logForm], false,
    "dens/dweibull.ipp:105-108"⟩,
  ⟨⟨.d, .weibull, .scalar⟩, [.shape, .scale, .logForm], none, .armaDist, ⟨.d, .weibull, .vec⟩, [.par .shape, .par .scale, .par .logForm], false,
    "dens/dweibull.ipp:115-118"⟩,
  ⟨⟨.d, .weibull, .scalar⟩, [.shape, .scale, .logForm], none, .blazeDist, ⟨.d, .weibull, .scalar⟩, [.par .shape, .par .scale, .par .logForm], false,
    "dens/dweibull.ipp:133-136"⟩,
  ⟨⟨.d, .weibull, .scalar⟩, [.shape, .scale, .logForm], none, .eigenDist, ⟨.d, .weibull, .vec⟩, [.par .shape, .par .scale, .par .logForm], false,
    "dens/dweibull.ipp:143-146"⟩,
  ⟨⟨.p, .bern, .vec⟩, [.prob, .logForm], none, .evalVec, ⟨.p, .bern, .scalar⟩, [.par .prob, .par .logForm], false,
    "prob/pbern.ipp:78-82"⟩,
  ⟨⟨.p, .bern, .scalar⟩, [.prob, .logForm], none, .stdvecDist, ⟨.p, .bern, .vec⟩, [.par .prob, .par .logForm], false,
    "prob/pbern.ipp:91-94"⟩,
  ⟨⟨.p, .bern, .scalar⟩, [.prob, .logForm], none, .armaDist, ⟨.p, .bern, .vec⟩, [.par .prob, .par .logForm], false,
    "prob/pbern.ipp:101-104"⟩,
  ⟨⟨.p, .bern, .scalar⟩, [.prob, .logForm], none, .blazeDist, ⟨.p, .bern, .vec⟩, [.par .prob, .par .logForm], false,
    "prob/pbern.ipp:119-122"⟩,
  ⟨⟨.p, .bern, .scalar⟩, [.prob, .logForm], none, .eigenDist, ⟨.p, .bern, .vec⟩, [.par .prob, .par .logForm], false,
    "prob/pbern.ipp:129-132"⟩,
  ⟨⟨.p, .beta, .vec⟩, [.a, .b, .logForm], none, .evalVec, ⟨.p, .beta, .scalar⟩, [.par .a, .par .b, .par .logForm], false,
    "prob/pbeta.ipp:111-115"⟩,
  ⟨⟨.p, .beta, .scalar⟩, [.a, .b, .logForm], none, .stdvecDist, ⟨.p, .beta, .vec⟩, [.par .a, .par .b, .par .logForm], false,
    "prob/pbeta.ipp:124-127"⟩,
  ⟨⟨.p, .beta, .scalar⟩, [.a, .b, .logForm], none, .armaDist, ⟨.p, .beta, .vec⟩, [.par .a, .par .b, .par .logForm], false,
    "prob/pbeta.ipp:134-137"⟩,
  ⟨⟨.p, .beta, .scalar⟩, [.a, .b, .logForm], none, .blazeDist, ⟨.p, .beta, .vec⟩, [.par .a, .par .b, .par .logForm], false,
    "prob/pbeta.ipp:152-155"⟩,
  ⟨⟨.p, .beta, .scalar⟩, [.a, .b, .logForm], none, .eigenDist, ⟨.p, .beta, .vec⟩, [.par .a, .par .b, .par .logForm], false,
    "prob/pbeta.ipp:162-165"⟩,
  ⟨⟨.p, .binom, .vec⟩, [.nTrials, .prob, .logForm], none, .evalVec, ⟨.p, .binom, .scalar⟩, [.par .nTrials, .par .prob, .par .logForm], false,
    "prob/pbinom.ipp:83-87"⟩,
  ⟨⟨.p, .binom, .scalar⟩, [.nTrials, .prob, .logForm], none, .stdvecDist, ⟨.p, .binom, .vec⟩, [.par .nTrials, .par .prob, .par .logForm], false,
    "prob/pbinom.ipp:96-99"⟩,
  ⟨⟨.p, .binom, .scalar⟩, [.nTrials, .prob, .logForm], none, .armaDist, ⟨.p, .binom, .vec⟩, [.par .nTrials, .par .prob, .par .logForm], false,
    "prob/pbinom.ipp:106-109"⟩,
  ⟨⟨.p, .binom, .scalar⟩, [.nTrials, .prob, .logForm], none, .blazeDist, ⟨.p, .binom, .vec⟩, [.par .nTrials, .par .prob, .par .logForm], false,
    "prob/pbinom.ipp:124-127"⟩,
  ⟨⟨.p, .binom, .scalar⟩, [.nTrials, .prob, .logForm], none, .eigenDist, ⟨.p, .binom, .vec⟩, [.par .nTrials, .par .prob, .par .logForm], false,
    "prob/pbinom.ipp:134-137"⟩,
  ⟨⟨.p, .cauchy, .vec⟩, [.mu, .sigma, .logForm], none, .evalVec, ⟨.p, .cauchy, .scalar⟩, [.par .mu, .par .sigma, .par .logForm], false,
    "prob/pcauchy.ipp:111-115"⟩,
  ⟨⟨.p, .cauchy, .scalar⟩, [.mu, .sigma, .logForm], none, .stdvecDist, ⟨.p, .cauchy, .vec⟩, [.par .mu, .par .sigma, .par .logForm], false,
    "prob/pcauchy.ipp:124-127"⟩,
  ⟨⟨.p, .cauchy, .scalar⟩, [.mu, .sigma, .logForm], none, .armaDist, ⟨.p, .cauchy, .vec⟩, [.par .mu, .par .sigma, .par .logForm], false,
    "prob/pcauchy.ipp:134-137"⟩,
  ⟨⟨.p, .cauchy, .scalar⟩, [.mu, .sigma, .logForm], none, .blazeDist, ⟨.p, .cauchy, .vec⟩, [.par .mu, .par .sigma, .par .logForm], false,
    "prob/pcauchy.ipp:152-155"⟩,
  ⟨⟨.p, .cauchy, .scalar⟩, [.mu, .sigma, .logForm], none, .eigenDist, ⟨.p, .cauchy, .vec⟩, [.par .mu, .par .sigma, .par .logForm], false,
    "prob/pcauchy.ipp:162-165"⟩,
  ⟨⟨.p, .chisq, .vec⟩, [.dof, .logForm], none, .evalVec, ⟨.p, .chisq, .scalar⟩, [.par .dof, .par .logForm], false,
    "prob/pchisq.ipp:93-97"⟩,
  ⟨⟨.p, .chisq, .scalar⟩, [.dof, .logForm], none, .stdvecDist, ⟨.p, .chisq, .vec⟩, [.par .dof, .par .logForm], false,
    "prob/pchisq.ipp:106-109"⟩,
  ⟨⟨.p, .chisq, .scalar⟩, [.dof, .logForm], none, .armaDist, ⟨.p, .chisq, .vec⟩, [.par .dof, .par .logForm], false,
    "prob/pchisq.ipp:116-119"⟩,
  ⟨⟨.p, .chisq, .scalar⟩, [.dof, .logForm], none, .blazeDist, ⟨.p, .chisq, .vec⟩, [.par .dof, .par .logForm], false,
    "prob/pchisq.ipp:134-137"⟩,
  ⟨⟨.p, .chisq, .scalar⟩, [.dof, .logForm], none, .eigenDist, ⟨.p, .chisq, .vec⟩, [.par .dof, .par .logForm], false,
    "prob/pchisq.ipp:144-147"⟩,
  ⟨⟨.p, .exp, .vec⟩, [.rate, .logForm], none, .evalVec, ⟨.p, .exp, .scalar⟩, [.par .rate, .par .logForm], false,
    "prob/pexp.ipp:87-91"⟩,
  ⟨⟨.p, .exp, .scalar⟩, [.rate, .logForm], none, .stdvecDist, ⟨.p, .exp, .vec⟩, [.par .rate, .par .logForm], false,
    "prob/pexp.ipp:100-103"⟩,
  ⟨⟨.p, .exp, .scalar⟩, [.rate, .logForm], none, .armaDist, ⟨.p, .exp, .vec⟩, [.par .rate, .par .logForm], false,
    "prob/pexp.ipp:110-113"⟩,
  ⟨⟨.p, .exp, .scalar⟩, [.rate, .logForm], none, .blazeDist, ⟨.p, .exp, .vec⟩, [.par .rate, .par .logForm], false,
    "prob/pexp.ipp:128-131"⟩,
  ⟨⟨.p, .exp, .scalar⟩, [.rate, .logForm], none, .eigenDist, ⟨.p, .exp, .vec⟩, [.par .rate, .par .logForm], false,
    "prob/pexp.ipp:138-141"⟩,
  ⟨⟨.p, .f, .vec⟩, [.df1, .df2, .logForm], none, .evalVec, ⟨.p, .f, .scalar⟩, [.par .df1, .par .df2, .par .logForm], false,
    "prob/pf.ipp:109-113"⟩,
  ⟨⟨.p, .f, .scalar⟩, [.df1, .df2, .logForm], none, .stdvecDist, ⟨.p, .f, .vec⟩, [.par .df1, .par .df2, .par .logForm], false,
    "prob/pf.ipp:122-125"⟩,
  ⟨⟨.p, .f, .scalar⟩, [.df1, .df2, .logForm], none, .armaDist, ⟨.p, .f, .vec⟩, [.par .df1, .par .df2, .par .logForm], false,
    "prob/pf.ipp:132-135"⟩,
  ⟨⟨.p, .f, .scalar⟩, [.df1, .df2, .logForm], none, .blazeDist, ⟨.p, .f, .vec⟩, [.par .df1, .par .df2, .par .logForm], false,
    "prob/pf.ipp:150-153"⟩,
  ⟨⟨.p, .f, .scalar⟩, [.df1, .df2, .logForm], none, .eigenDist, ⟨.p, .f, .vec⟩, [.par .df1, .par .df2, .par .logForm], false,
    "prob/pf.ipp:160-163"⟩,
  ⟨⟨.p, .gamma, .vec⟩, [.shape, .scale, .logForm], none, .evalVec, ⟨.p, .gamma, .scalar⟩, [.par .shape, .par .scale, .par .logForm], false,
    "prob/pgamma.ipp:113-117"⟩,
  ⟨⟨.p, .gamma, .scalar⟩, [.shape, .scale, .logForm], none, .stdvecDist, ⟨.p, .gamma, .vec⟩, [.par .shape, .par .scale, .par .logForm], false,
    "prob/pgamma.ipp:126-129"⟩,
  ⟨⟨.p, .gamma, .scalar⟩, [.shape, .scale, .logForm], none, .armaDist, ⟨.p, .gamma, .vec⟩, [.par .shape, .par .scale, .par .logForm], false,
    "prob/pgamma.ipp:136-139"⟩,
  ⟨⟨.p, .gamma, .scalar⟩, [.shape, .scale, .logForm], none, .blazeDist, ⟨.p, .gamma, .vec⟩, [.par .shape, .par .scale, .par .logForm], false,
    "prob/pgamma.ipp:154-157"⟩,
  ⟨⟨.p, .gamma, .scalar⟩, [.shape, .scale, .logForm], none, .eigenDist, ⟨.p, .gamma, .vec⟩, [.par .shape, .par .scale, .par .logForm], false,
    "prob/pgamma.ipp:164-167"⟩,
  ⟨⟨.p, .invgamma, .vec⟩, [.shape, .rate, .logForm], none, .evalVec, ⟨.p, .invgamma, .scalar⟩, [.par .shape, .par .rate, .par .logForm], false,
    "prob/pinvgamma.ipp:102-106"⟩,
  ⟨⟨.p, .invgamma, .scalar⟩, [.shape, .rate, .logForm], none, .stdvecDist, ⟨.p, .invgamma, .vec⟩, [.par .shape, .par .rate, .par .logForm], false,
    "prob/pinvgamma.ipp:115-118"⟩,
  ⟨⟨.p, .invgamma, .scalar⟩, [.shape, .rate, .logForm], none, .armaDist, ⟨.p, .invgamma, .vec⟩, [.par .shape, .par .rate, .par .logForm], false,
    "prob/pinvgamma.ipp:125-128"⟩,
  ⟨⟨.p, .invgamma, .scalar⟩, [.shape, .rate, .logForm], none, .blazeDist, ⟨.p, .invgamma, .vec⟩, [.par .shape, .par .rate, .par .logForm], false,
    "prob/pinvgamma.ipp:143-146"⟩,
  ⟨⟨.p, .invgamma, .scalar⟩, [.shape, .rate, .logForm], none, .eigenDist, ⟨.p, .invgamma, .vec⟩, [.par .shape, .par .rate, .par .logForm], false,
    "prob/pinvgamma.ipp:153-156"⟩,
  ⟨⟨.p, .invgauss, .vec⟩, [.mu, .lambda, .logForm], none, .evalVec, ⟨.p, .invgauss, .scalar⟩, [.par .mu, .par .lambda, .par .logForm], false,
    "prob/pinvgauss.ipp:129-133"⟩,
  ⟨⟨.p, .invgauss, .scalar⟩, [.mu, .lambda, .logForm], none, .stdvecDist, ⟨.p, .invgauss, .vec⟩, [.par .mu, .par .lambda, .par .logForm], false,
    "prob/pinvgauss.ipp:142-145"⟩,
  ⟨⟨.p, .invgauss, .scalar⟩, [.mu, .lambda, .logForm], none, .armaDist, ⟨.p, .invgauss, .vec⟩, [.par .mu, .par .lambda, .par .logForm], false,
    "prob/pinvgauss.ipp:152-155"⟩,
  ⟨⟨.p, .invgauss, .scalar⟩, [.mu, .lambda, .logForm], none, .blazeDist, ⟨.p, .invgauss, .vec⟩, [.par .mu, .par .lambda, .par .logForm], false,
    "prob/pinvgauss.ipp:170-173"⟩,
  ⟨⟨.p, .invgauss, .scalar⟩, [.mu, .lambda, .logForm], none, .eigenDist, ⟨.p, .invgauss, .vec⟩, [.par .mu, .par .lambda, .par .logForm], false,
    "prob/pinvgauss.ipp:180-183"⟩,
  ⟨⟨.p, .laplace, .vec⟩, [.mu, .sigma, .logForm], none, .evalVec, ⟨.p, .laplace, .scalar⟩, [.par .mu, .par .sigma, .par .logForm], false,
    "prob/plaplace.ipp:113-117"⟩,
  ⟨⟨.p, .laplace, .scalar⟩, [.mu, .sigma, .logForm], none, .stdvecDist, ⟨.p, .laplace, .vec⟩, [.par .mu, .par .sigma, .par .logForm], false,
    "prob/plaplace.ipp:126-129"⟩,
  ⟨⟨.p, .laplace, .scalar⟩, [.mu, .sigma, .logForm], none, .armaDist, ⟨.p, .laplace, .vec⟩, [.par .mu, .par .sigma, .par .logForm], false,
    "prob/plaplace.ipp:136-139"⟩,
  ⟨⟨.p, .laplace, .scalar⟩, [.mu, .sigma, .logForm], none, .blazeDist, ⟨.p, .laplace, .vec⟩, [.par .mu, .par .sigma, .par .logForm], false,
    "prob/plaplace.ipp:154-157"⟩,
  ⟨⟨.p, .laplace, .scalar⟩, [.mu, .sigma, .logForm], none, .eigenDist, ⟨.p, .laplace, .vec⟩, [.par .mu, .par .sigma, .par .logForm], false,
    "prob/plaplace.ipp:164-167"⟩,
  ⟨⟨.p, .lnorm, .vec⟩, [.mu, .sigma, .logForm], none, .evalVec, ⟨.p, .lnorm, .scalar⟩, [.par .mu, .par .sigma, .par .logForm], false,
    "prob/plnorm.ipp:76-80"⟩,
  ⟨⟨.p, .lnorm, .scalar⟩, [.mu, .sigma, .logForm], none, .stdvecDist, ⟨.p, .lnorm, .vec⟩, [.par .mu, .par .sigma, .par .logForm], false,
    "prob/plnorm.ipp:89-92"⟩,
  ⟨⟨.p, .lnorm, .scalar⟩, [.mu, .sigma, .logForm], none, .armaDist, ⟨.p, .lnorm, .vec⟩, [.par .mu, .par .sigma, .par .logForm], false,
    "prob/plnorm.ipp:99-102"⟩,
  ⟨⟨.p, .lnorm, .scalar⟩, [.mu, .sigma, .logForm], none, .blazeDist, ⟨.p, .lnorm, .vec⟩, [.par .mu, .par .sigma, .par .logForm], false,
    "prob/plnorm.ipp:117-120"⟩,
  ⟨⟨.p, .lnorm, .scalar⟩, [.mu, .sigma, .logForm], none, .eigenDist, ⟨.p, .lnorm, .vec⟩, [.par .mu, .par .sigma, .par .logForm], false,
    "prob/plnorm.ipp:127-130"⟩,
  ⟨⟨.p, .logis, .vec⟩, [.mu, .sigma, .logForm], none, .evalVec, ⟨.p, .logis, .scalar⟩, [.par .mu, .par .sigma, .par .logForm], false,
    "prob/plogis.ipp:112-116"⟩,
  ⟨⟨.p, .logis, .scalar⟩, [.mu, .sigma, .logForm], none, .stdvecDist, ⟨.p, .logis, .vec⟩, [.par .mu, .par .sigma, .par .logForm], false,
    "prob/plogis.ipp:125-128"⟩,
  ⟨⟨.p, .logis, .scalar⟩, [.mu, .sigma, .logForm], none, .armaDist, ⟨.p, .logis, .vec⟩, [.par .mu, .par .sigma, .par .logForm], false,
    "prob/plogis.ipp:135-138"⟩,
  ⟨⟨.p, .logis, .scalar⟩, [.mu, .sigma, .logForm], none, .blazeDist, ⟨.p, .logis, .vec⟩, [.par .mu, .par .sigma, .par .logForm], false,
    "prob/plogis.ipp:153-156"⟩,
  ⟨⟨.p, .logis, .scalar⟩, [.mu, .sigma, .logForm], none, .eigenDist, ⟨.p, .logis, .vec⟩, [.par .mu, .par .sigma, .par .logForm], false,
    "prob/plogis.ipp:163-166"⟩,
  ⟨⟨.p, .norm, .vec⟩, [.mu, .sigma, .logForm], none, .evalVec, ⟨.p, .norm, .scalar⟩, [.par .mu, .par .sigma, .par .logForm], false,
    "prob/pnorm.ipp:125-129"⟩,
  ⟨⟨.p, .norm, .scalar⟩, [.mu, .sigma, .logForm], none, .stdvecDist, ⟨.p, .norm, .vec⟩, [.par .mu, .par .sigma, .par .logForm], false,
    "prob/pnorm.ipp:138-141"⟩,
  ⟨⟨.p, .norm, .scalar⟩, [.mu, .sigma, .logForm], none, .armaDist, ⟨.p, .norm, .vec⟩, [.par .mu, .par .sigma, .par .logForm], false,
    "prob/pnorm.ipp:148-151"⟩,
  ⟨⟨.p, .norm, .scalar⟩, [.mu, .sigma, .logForm], none, .blazeDist, ⟨.p, .norm, .vec⟩, [.par .mu, .par .sigma, .par .logForm], false,
    "prob/pnorm.ipp:166-169"⟩,
  ⟨⟨.p, .norm, .scalar⟩, [.mu, .sigma, .logForm], none, .eigenDist, ⟨.p, .norm, .vec⟩, [.par .mu, .par .sigma, .par .logForm], false,
    "prob/pnorm.ipp:176-179"⟩,
  ⟨⟨.p, .pois, .vec⟩, [.rate, .logForm], none, .evalVec, ⟨.p, .pois, .scalar⟩, [.par .rate, .par .logForm], false,
    "prob/ppois.ipp:99-103"⟩,
  ⟨⟨.p, .pois, .scalar⟩, [.rate, .logForm], none, .stdvecDist, ⟨.p, .pois, .vec⟩, [.par .rate, .par .logForm], false,
    "prob/ppois.ipp:112-115"⟩,
  ⟨⟨.p, .pois, .scalar⟩, [.rate, .logForm], none, .armaDist, ⟨.p, .pois, .vec⟩, [.par .rate, .par .logForm], false,
    "prob/ppois.ipp:122-125"⟩,
  ⟨⟨.p, .pois, .scalar⟩, [.rate, .logForm], none, .blazeDist, ⟨.p, .pois, .vec⟩, [.par .rate, .par .logForm], false,
    "prob/ppois.ipp:140-143"⟩,
  ⟨⟨.p, .pois, .scalar⟩, [.rate, .logForm], none, .eigenDist, ⟨.p, .pois, .vec⟩, [.par .rate, .par .logForm], false,
    "prob/ppois.ipp:150-153"⟩,
  ⟨⟨.p, .radem, .vec⟩, [.prob, .logForm], none, .evalVec, ⟨.p, .radem, .scalar⟩, [.par .prob, .par .logForm], false,
    "prob/pradem.ipp:78-82"⟩,
  ⟨⟨.p, .radem, .scalar⟩, [.prob, .logForm], none, .stdvecDist, ⟨.p, .radem, .vec⟩, [.par .prob, .par .logForm], false,
    "prob/pradem.ipp:91-94"⟩,
  ⟨⟨.p, .radem, .scalar⟩, [.prob, .logForm], none, .armaDist, ⟨.p, .radem, .vec⟩, [.par .prob, .par .logForm], false,
    "prob/pradem.ipp:101-104"⟩,
  ⟨⟨.p, .radem, .scalar⟩, [.prob, .logForm], none, .blazeDist, ⟨.p, .radem, .vec⟩, [.par .prob, .par .logForm], false,
    "prob/pradem.ipp:119-122"⟩,
  ⟨⟨.p, .radem, .scalar⟩, [.prob, .logForm], none, .eigenDist, ⟨.p, .radem, .vec⟩, [.par .prob, .par .logForm], false,
    "prob/pradem.ipp:129-132"⟩,
  ⟨⟨.p, .t, .vec⟩, [.dof, .logForm], none, .evalVec, ⟨.p, .t, .scalar⟩, [.par .dof, .par .logForm], false,
    "prob/pt.ipp:120-124"⟩,
  ⟨⟨.p, .t, .scalar⟩, [.dof, .logForm], none, .stdvecDist, ⟨.p, .t, .vec⟩, [.par .dof, .par .logForm], false,
    "prob/pt.ipp:133-136"⟩,
  ⟨⟨.p, .t, .scalar⟩, [.dof, .logForm], none, .armaDist, ⟨.p, .t, .vec⟩, [.par .dof, .par .logForm], false,
    "prob/pt.ipp:143-146"⟩,
  ⟨⟨.p, .t, .scalar⟩, [.dof, .logForm], none, .blazeDist, ⟨.p, .t, .vec⟩, [.par .dof, .par .logForm], false,
    "prob/pt.ipp:161-164"⟩,
  ⟨⟨.p, .t, .scalar⟩, [.dof, .logForm], none, .eigenDist, ⟨.p, .t, .vec⟩, [.par .dof, .par .logForm], false,
    "prob/pt.ipp:171-174"⟩,
  ⟨⟨.p, .unif, .vec⟩, [.a, .b, .logForm], none, .evalVec, ⟨.p, .unif, .scalar⟩, [.par .a, .par .b, .par .logForm], false,
    "prob/punif.ipp:89-93"⟩,
  ⟨⟨.p, .unif, .scalar⟩, [.a, .b, .logForm], none, .stdvecDist, ⟨.p, .unif, .vec⟩, [.par .a, .par .b, .par .logForm], false,
    "prob/punif.ipp:102-105"⟩,
  ⟨⟨.p, .unif, .scalar⟩, [.a, .b, .logForm], none, .armaDist, ⟨.p, .unif, .vec⟩, [.par .a, .par .b, .par .logForm], false,
    "prob/punif.ipp:112-115"⟩,
  ⟨⟨.p, .unif, .scalar⟩, [.a, .b, .logForm], none, .blazeDist, ⟨.p, .unif, .vec⟩, [.par .a, .par .b, .par .logForm], false,
    "prob/punif.ipp:130-133"⟩,
  ⟨⟨.p, .unif, .scalar⟩, [.a, .b, .logForm], none, .eigenDist, ⟨.p, .unif, .vec⟩, [.par .a, .par .b, .par .logForm], false,
    "prob/punif.ipp:140-143"⟩,
  ⟨⟨.p, .weibull, .vec⟩, [.shape, .scale, .logForm], none, .evalVec, ⟨.p, .weibull, .scalar⟩, [.par .shape, .par .scale, .par .logForm], false,
    "prob/pweibull.ipp:113-117"⟩,
  ⟨⟨.p, .weibull, .scalar⟩, [.shape, .scale, .logForm], none, .stdvecDist, ⟨.p, .weibull, .vec⟩, [.par .shape, .par .scale, .par .logForm], false,
    "prob/pweibull.ipp:126-129"⟩,
  ⟨⟨.p, .weibull, .scalar⟩, [.shape, .scale, .logForm], none, .armaDist, ⟨.p, .weibull, .vec⟩, [.par .shape, .par .scale, .par .logForm], false,
    "prob/pweibull.ipp:136-139"⟩,
  ⟨⟨.p, .weibull, .scalar⟩, [.shape, .scale, .logForm], none, .blazeDist, ⟨.p, .weibull, .vec⟩, [.par .shape, .par .scale, .par .logForm], false,
    "prob/pweibull.ipp:154-157"⟩,
  ⟨⟨.p, .weibull, .scalar⟩, [.shape, .scale, .logForm], none, .eigenDist, ⟨.p, .weibull, .vec⟩, [.par .shape, .par .scale, .par .logForm], false,
    "prob/pweibull.ipp:164-167"⟩,
  ⟨⟨.q, .bern, .vec⟩, [.prob], none, .evalVec, ⟨.q, .bern, .scalar⟩, [.par .prob], false,
    "quant/qbern.ipp:78-82"⟩,
  ⟨⟨.q, .bern, .scalar⟩, [.prob], none, .stdvecDist, ⟨.q, .bern, .vec⟩, [.par .prob], false,
    "quant/qbern.ipp:91-94"⟩,
  ⟨⟨.q, .bern, .scalar⟩, [.prob], none, .armaDist, ⟨.q, .bern, .vec⟩, [.par .prob], false,
    "quant/qbern.ipp:101-104"⟩,
  ⟨⟨.q, .bern, .scalar⟩, [.prob], none, .blazeDist, ⟨.q, .bern, .vec⟩, [.par .prob], false,
    "quant/qbern.ipp:119-122"⟩,
  ⟨⟨.q, .bern, .scalar⟩, [.prob], none, .eigenDist, ⟨.q, .bern, .vec⟩, [.par .prob], false,
    "quant/qbern.ipp:129-132"⟩,
  ⟨⟨.q, .beta, .vec⟩, [.a, .b], none, .evalVec, ⟨.q, .beta, .scalar⟩, [.par .a, .par .b], false,
    "quant/qbeta.ipp:116-120"⟩,
  ⟨⟨.q, .beta, .scalar⟩, [.a, .b], none, .stdvecDist, ⟨.q, .beta, .vec⟩, [.par .a, .par .b], false,
    "quant/qbeta.ipp:129-132"⟩,
  ⟨⟨.q, .beta, .scalar⟩, [.a, .b], none, .armaDist, ⟨.q, .beta, .vec⟩, [.par .a, .par .b], false,
    "quant/qbeta.ipp:139-142"⟩,
  ⟨⟨.q, .beta, .scalar⟩, [.a, .b], none, .blazeDist, ⟨.q, .beta, .vec⟩, [.par .a, .par .b], false,
    "quant/qbeta.ipp:157-160"⟩,
  ⟨⟨.q, .beta, .scalar⟩, [.a, .b], none, .eigenDist, ⟨.q, .beta, .vec⟩, [.par .a, .par .b], false,
    "quant/qbeta.ipp:167-170"⟩,
  ⟨⟨.q, .binom, .vec⟩, [.nTrials, .prob], none, .evalVec, ⟨.q, .binom, .scalar⟩, [.par .nTrials, .par .prob], false,
    "quant/qbinom.ipp:92-96"⟩,
  ⟨⟨.q, .binom, .scalar⟩, [.nTrials, .prob], none, .stdvecDist, ⟨.q, .binom, .vec⟩, [.par .nTrials, .par .prob], false,
    "quant/qbinom.ipp:105-108"⟩,
  ⟨⟨.q, .binom, .scalar⟩, [.nTrials, .prob], none, .armaDist, ⟨.q, .binom, .vec⟩, [.par .nTrials, .par .prob], false,
    "quant/qbinom.ipp:115-118"⟩,
  ⟨⟨.q, .binom, .scalar⟩, [.nTrials, .prob], none, .blazeDist, ⟨.q, .binom, .vec⟩, [.par .nTrials, .par .prob], false,
    "quant/qbinom.ipp:133-136"⟩,
  ⟨⟨.q, .binom, .scalar⟩, [.nTrials, .prob], none, .eigenDist, ⟨.q, .binom, .vec⟩, [.par .nTrials, .par .prob], false,
    "quant/qbinom.ipp:143-146"⟩,
  ⟨⟨.q, .cauchy, .vec⟩, [.mu, .sigma], none, .evalVec, ⟨.q, .cauchy, .scalar⟩, [.par .mu, .par .sigma], false,
    "quant/qcauchy.ipp:100-104"⟩,
  ⟨⟨.q, .cauchy, .scalar⟩, [.mu, .sigma], none, .stdvecDist, ⟨.q, .cauchy, .vec⟩, [.par .mu, .par .sigma], false,
    "quant/qcauchy.ipp:113-116"⟩,
  ⟨⟨.q, .cauchy, .scalar⟩, [.mu, .sigma], none, .armaDist, ⟨.q, .cauchy, .vec⟩, [.par .mu, .par .sigma], false,
    "quant/qcauchy.ipp:125-128"⟩,
  ⟨⟨.q, .cauchy, .scalar⟩, [.mu, .sigma], none, .blazeDist, ⟨.q, .cauchy, .vec⟩, [.par .mu, .par .sigma], false,
    "quant/qcauchy.ipp:143-146"⟩,
  ⟨⟨.q, .cauchy, .scalar⟩, [.mu, .sigma], none, .eigenDist, ⟨.q, .cauchy, .vec⟩, [.par .mu, .par .sigma], false,
    "quant/qcauchy.ipp:153-156"⟩,
  ⟨⟨.q, .chisq, .vec⟩, [.dof], none, .evalVec, ⟨.q, .chisq, .scalar⟩, [.par .dof], false,
    "quant/qchisq.ipp:90-94"⟩,
  ⟨⟨.q, .chisq, .scalar⟩, [.dof], none, .stdvecDist, ⟨.q, .chisq, .vec⟩, [.par .dof], false,
    "quant/qchisq.ipp:103-106"⟩,
  ⟨⟨.q, .chisq, .scalar⟩, [.dof], none, .armaDist, ⟨.q, .chisq, .vec⟩, [.par .dof], false,
    "quant/qchisq.ipp:113-116"⟩,
  ⟨⟨.q, .chisq, .scalar⟩, [.dof], none, .blazeDist, ⟨.q, .chisq, .vec⟩, [.par .dof], false,
    "quant/qchisq.ipp:131-134"⟩,
  ⟨⟨.q, .chisq, .scalar⟩, [.dof], none, .eigenDist, ⟨.q, .chisq, .vec⟩, [.par .dof], false,
    "quant/qchisq.ipp:141-144"⟩,
  ⟨⟨.q, .exp, .vec⟩, [.rate], none, .evalVec, ⟨.q, .exp, .scalar⟩, [.par .rate], false,
    "quant/qexp.ipp:90-94"⟩,
  ⟨⟨.q, .exp, .scalar⟩, [.rate], none, .stdvecDist, ⟨.q, .exp, .vec⟩, [.par .rate], false,
    "quant/qexp.ipp:103-106"⟩,
  ⟨⟨.q, .exp, .scalar⟩, [.rate], none, .armaDist, ⟨.q, .exp, .vec⟩, [.par .rate], false,
    "quant/qexp.ipp:113-116"⟩,
  ⟨⟨.q, .exp, .scalar⟩, [.rate], none, .blazeDist, ⟨.q, .exp, .vec⟩, [.par .rate], false,
    "quant/qexp.ipp:131-134"⟩,
  ⟨⟨.q, .exp, .scalar⟩, [.rate], none, .eigenDist, ⟨.q, .exp, .vec⟩, [.par .rate], false,
    "quant/qexp.ipp:141-144"⟩,
  ⟨⟨.q, .f, .vec⟩, [.df1, .df2], none, .evalVec, ⟨.q, .f, .scalar⟩, [.par .df1, .par .df2], false,
    "quant/qf.ipp:118-122"⟩,
  ⟨⟨.q, .f, .scalar⟩, [.df1, .df2], none, .stdvecDist, ⟨.q, .f, .vec⟩, [.par .df1, .par .df2], false,
    "quant/qf.ipp:131-134"⟩,
  ⟨⟨.q, .f, .scalar⟩, [.df1, .df2], none, .armaDist, ⟨.q, .f, .vec⟩, [.par .df1, .par .df2], false,
    "quant/qf.ipp:141-144"⟩,
  ⟨⟨.q, .f, .scalar⟩, [.df1, .df2], none, .blazeDist, ⟨.q, .f, .vec⟩, [.par .df1, .par .df2], false,
    "quant/qf.ipp:159-162"⟩,
  ⟨⟨.q, .f, .scalar⟩, [.df1, .df2], none, .eigenDist, ⟨.q, .f, .vec⟩, [.par .df1, .par .df2], false,
    "quant/qf.ipp:169-172"⟩,
  ⟨⟨.q, .gamma, .vec⟩, [.shape, .scale], none, .evalVec, ⟨.q, .gamma, .scalar⟩, [.par .shape, .par .scale], false,
    "quant/qgamma.ipp:108-112"⟩,
  ⟨⟨.q, .gamma, .scalar⟩, [.shape, .scale], none, .stdvecDist, ⟨.q, .gamma, .vec⟩, [.par .shape, .par .scale], false,
    "quant/qgamma.ipp:121-124"⟩,
  ⟨⟨.q, .gamma, .scalar⟩, [.shape, .scale], none, .armaDist, ⟨.q, .gamma, .vec⟩, [.par .shape, .par .scale], false,
    "quant/qgamma.ipp:131-134"⟩,
  ⟨⟨.q, .gamma, .scalar⟩, [.shape, .scale], none, .blazeDist, ⟨.q, .gamma, .vec⟩, [.par .shape, .par .scale], false,
    "quant/qgamma.ipp:149-152"⟩,
  ⟨⟨.q, .gamma, .scalar⟩, [.shape, .scale], none, .eigenDist, ⟨.q, .gamma, .vec⟩, [.par .shape, .par .scale], false,
    "quant/qgamma.ipp:159-162"⟩,
  ⟨⟨.q, .invgamma, .vec⟩, [.shape, .rate], none, .evalVec, ⟨.q, .invgamma, .scalar⟩, [.par .shape, .par .rate], false,
    "quant/qinvgamma.ipp:108-112"⟩,
  ⟨⟨.q, .invgamma, .scalar⟩, [.shape, .rate], none, .stdvecDist, ⟨.q, .invgamma, .vec⟩, [.par .shape, .par .rate], false,
    "quant/qinvgamma.ipp:121-124"⟩,
  ⟨⟨.q, .invgamma, .scalar⟩, [.shape, .rate], none, .armaDist, ⟨.q, .invgamma, .vec⟩, [.par .shape, .par .rate], false,
    "quant/qinvgamma.ipp:131-134"⟩,
  ⟨⟨.q, .invgamma, .scalar⟩, [.shape, .rate], none, .blazeDist, ⟨.q, .invgamma, .vec⟩, [.par .shape, .par .rate], false,
    "quant/qinvgamma.ipp:149-152"⟩,
  ⟨⟨.q, .invgamma, .scalar⟩, [.shape, .rate], none, .eigenDist, ⟨.q, .invgamma, .vec⟩, [.par .shape, .par .rate], false,
    "quant/qinvgamma.ipp:159-162"⟩,
  ⟨⟨.q, .invgauss, .vec⟩, [.mu, .lambda], none, .evalVec, ⟨.q, .invgauss, .scalar⟩, [.par .mu, .par .lambda], false,
    "quant/qinvgauss.ipp:140-144"⟩,
  ⟨⟨.q, .invgauss, .scalar⟩, [.mu, .lambda], none, .stdvecDist, ⟨.q, .invgauss, .vec⟩, [.par .mu, .par .lambda], false,
    "quant/qinvgauss.ipp:153-156"⟩,
  ⟨⟨.q, .invgauss, .scalar⟩, [.mu, .lambda], none, .armaDist, ⟨.q, .invgauss, .vec⟩, [.par .mu, .par .lambda], false,
    "quant/qinvgauss.ipp:163-166"⟩,
  ⟨⟨.q, .invgauss, .scalar⟩, [.mu, .lambda], none, .blazeDist, ⟨.q, .invgauss, .vec⟩, [.par .mu, .par .lambda], false,
    "quant/qinvgauss.ipp:181-184"⟩,
  ⟨⟨.q, .invgauss, .scalar⟩, [.mu, .lambda], none, .eigenDist, ⟨.q, .invgauss, .vec⟩, [.par .mu, .par .lambda], false,
    "quant/qinvgauss.ipp:191-194"⟩,
  ⟨⟨.q, .laplace, .vec⟩, [.mu, .sigma], none, .evalVec, ⟨.q, .laplace, .scalar⟩, [.par .mu, .par .sigma], false,
    "quant/qlaplace.ipp:100-104"⟩,
  ⟨⟨.q, .laplace, .scalar⟩, [.mu, .sigma], none, .stdvecDist, ⟨.q, .laplace, .vec⟩, [.par .mu, .par .sigma], false,
    "quant/qlaplace.ipp:113-116"⟩,
  ⟨⟨.q, .laplace, .scalar⟩, [.mu, .sigma], none, .armaDist, ⟨.q, .laplace, .vec⟩, [.par .mu, .par .sigma], false,
    "quant/qlaplace.ipp:123-126"⟩,
  ⟨⟨.q, .laplace, .scalar⟩, [.mu, .sigma], none, .blazeDist, ⟨.q, .laplace, .vec⟩, [.par .mu, .par .sigma], false,
    "quant/qlaplace.ipp:141-144"⟩,
  ⟨⟨.q, .laplace, .scalar⟩, [.mu, .sigma], none, .eigenDist, ⟨.q, .laplace, .vec⟩, [.par .mu, .par .sigma], false,
    "quant/qlaplace.ipp:151-154"⟩,
  ⟨⟨.q, .lnorm, .vec⟩, [.mu, .sigma], none, .evalVec, ⟨.q, .lnorm, .scalar⟩, [.par .mu, .par .sigma], false,
    "quant/qlnorm.ipp:85-89"⟩,
  ⟨⟨.q, .lnorm, .scalar⟩, [.mu, .sigma], none, .stdvecDist, ⟨.q, .lnorm, .vec⟩, [.par .mu, .par .sigma], false,
    "quant/qlnorm.ipp:98-101"⟩,
  ⟨⟨.q, .lnorm, .scalar⟩, [.mu, .sigma], none, .armaDist, ⟨.q, .lnorm, .vec⟩, [.par .mu, .par .sigma], false,
    "quant/qlnorm.ipp:108-111"⟩,
  ⟨⟨.q, .lnorm, .scalar⟩, [.mu, .sigma], none, .blazeDist, ⟨.q, .lnorm, .vec⟩, [.par .mu, .par .sigma], false,
    "quant/qlnorm.ipp:126-129"⟩,
  ⟨⟨.q, .lnorm, .scalar⟩, [.mu, .sigma], none, .eigenDist, ⟨.q, .lnorm, .vec⟩, [.par .mu, .par .sigma], false,
    "quant/qlnorm.ipp:136-139"⟩,
  ⟨⟨.q, .logis, .vec⟩, [.mu, .sigma], none, .evalVec, ⟨.q, .logis, .scalar⟩, [.par .mu, .par .sigma], false,
    "quant/qlogis.ipp:100-104"⟩,
  ⟨⟨.q, .logis, .scalar⟩, [.mu, .sigma], none, .stdvecDist, ⟨.q, .logis, .vec⟩, [.par .mu, .par .sigma], false,
    "quant/qlogis.ipp:113-116"⟩,
  ⟨⟨.q, .logis, .scalar⟩, [.mu, .sigma], none, .armaDist, ⟨.q, .logis, .vec⟩, [.par .mu, .par .sigma], false,
    "quant/qlogis.ipp:123-126"⟩,
  ⟨⟨.q, .logis, .scalar⟩, [.mu, .sigma], none, .blazeDist, ⟨.q, .logis, .vec⟩, [.par .mu, .par .sigma], false,
    "quant/qlogis.ipp:141-144"⟩,
  ⟨⟨.q, .logis, .scalar⟩, [.mu, .sigma], none, .eigenDist, ⟨.q, .logis, .vec⟩, [.par .mu, .par .sigma], false,
    "quant/qlogis.ipp:151-154"⟩,
  ⟨⟨.q, .norm, .vec⟩, [.mu, .sigma], none, .evalVec, ⟨.q, .norm, .scalar⟩, [.par .mu, .par .sigma], false,
    "quant/qnorm.ipp:109-113"⟩,
  ⟨⟨.q, .norm, .scalar⟩, [.mu, .sigma], none, .stdvecDist, ⟨.q, .norm, .vec⟩, [.par .mu, .par .sigma], false,
    "quant/qnorm.ipp:122-125"⟩,
  ⟨⟨.q, .norm, .scalar⟩, [.mu, .sigma], none, .armaDist, ⟨.q, .norm, .vec⟩, [.par .mu, .par .sigma], false,
    "quant/qnorm.ipp:132-135"⟩,
  ⟨⟨.q, .norm, .scalar⟩, [.mu, .sigma], none, .blazeDist, ⟨.q, .norm, .vec⟩, [.par .mu, .par .sigma], false,
    "quant/qnorm.ipp:150-153"⟩,
  ⟨⟨.q, .norm, .scalar⟩, [.mu, .sigma], none, .eigenDist, ⟨.q, .norm, .vec⟩, [.par .mu, .par .sigma], false,
    "quant/qnorm.ipp:160-163"⟩,
  ⟨⟨.q, .pois, .vec⟩, [.rate], none, .evalVec, ⟨.q, .pois, .scalar⟩, [.par .rate], false,
    "quant/qpois.ipp:118-122"⟩,
  ⟨⟨.q, .pois, .scalar⟩, [.rate], none, .stdvecDist, ⟨.q, .pois, .vec⟩, [.par .rate], false,
    "quant/qpois.ipp:131-134"⟩,
  ⟨⟨.q, .pois, .scalar⟩, [.rate], none, .armaDist, ⟨.q, .pois, .vec⟩, [.par .rate], false,
    "quant/qpois.ipp:141-144"⟩,
  ⟨⟨.q, .pois, .scalar⟩, [.rate], none, .blazeDist, ⟨.q, .pois, .vec⟩, [.par .rate], false,
    "quant/qpois.ipp:159-162"⟩,
  ⟨⟨.q, .pois, .scalar⟩, [.rate], none, .eigenDist, ⟨.q, .pois, .vec⟩, [.par .rate], false,
    "quant/qpois.ipp:169-172"⟩,
  ⟨⟨.q, .radem, .vec⟩, [.prob], none, .evalVec, ⟨.q, .radem, .scalar⟩, [.par .prob], false,
    "quant/qradem.ipp:78-82"⟩,
  ⟨⟨.q, .radem, .scalar⟩, [.prob], none, .stdvecDist, ⟨.q, .radem, .vec⟩, [.par .prob], false,
    "quant/qradem.ipp:91-94"⟩,
  ⟨⟨.q, .radem, .scalar⟩, [.prob], none, .armaDist, ⟨.q, .radem, .vec⟩, [.par .prob], false,
    "quant/qradem.ipp:101-104"⟩,
  ⟨⟨.q, .radem, .scalar⟩, [.prob], none, .blazeDist, ⟨.q, .radem, .vec⟩, [.par .prob], false,
    "quant/qradem.ipp:119-122"⟩,
  ⟨⟨.q, .radem, .scalar⟩, [.prob], none, .eigenDist, ⟨.q, .radem, .vec⟩, [.par .prob], false,
    "quant/qradem.ipp:129-132"⟩,
  ⟨⟨.q, .t, .vec⟩, [.dof], none, .evalVec, ⟨.q, .t, .scalar⟩, [.par .dof], false,
    "quant/qt.ipp:312-316"⟩,
  ⟨⟨.q, .t, .scalar⟩, [.dof], none, .stdvecDist, ⟨.q, .t, .vec⟩, [.par .dof], false,
    "quant/qt.ipp:325-328"⟩,
  ⟨⟨.q, .t, .scalar⟩, [.dof], none, .armaDist, ⟨.q, .t, .vec⟩, [.par .dof], false,
    "quant/qt.ipp:335-338"⟩,
  ⟨⟨.q, .t, .scalar⟩, [.dof], none, .blazeDist, ⟨.q, .t, .vec⟩, [.par .dof], false,
    "quant/qt.ipp:353-356"⟩,
  ⟨⟨.q, .t, .scalar⟩, [.dof], none, .eigenDist, ⟨.q, .t, .vec⟩, [.par .dof], false,
    "quant/qt.ipp:363-366"⟩,
  ⟨⟨.q, .unif, .vec⟩, [.a, .b], none, .evalVec, ⟨.q, .unif, .scalar⟩, [.par .a, .par .b], false,
    "quant/qunif.ipp:93-97"⟩,
  ⟨⟨.q, .unif, .scalar⟩, [.a, .b], none, .stdvecDist, ⟨.q, .unif, .vec⟩, [.par .a, .par .b], false,
    "quant/qunif.ipp:106-109"⟩,
  ⟨⟨.q, .unif, .scalar⟩, [.a, .b], none, .armaDist, ⟨.q, .unif, .vec⟩, [.par .a, .par .b], false,
    "quant/qunif.ipp:116-119"⟩,
  ⟨⟨.q, .unif, .scalar⟩, [.a, .b], none, .blazeDist, ⟨.q, .unif, .vec⟩, [.par .a, .par .b], false,
    "quant/qunif.ipp:134-137"⟩,
  ⟨⟨.q, .unif, .scalar⟩, [.a, .b], none, .eigenDist, ⟨.q, .unif, .vec⟩, [.par .a, .par .b], false,
    "quant/qunif.ipp:144-147"⟩,
  ⟨⟨.q, .weibull, .vec⟩, [.shape, .scale], none, .evalVec, ⟨.q, .weibull, .scalar⟩, [.par .shape, .par .scale], false,
    "quant/qweibull.ipp:96-100"⟩,
  ⟨⟨.q, .weibull, .scalar⟩, [.shape, .scale], none, .stdvecDist, ⟨.q, .weibull, .vec⟩, [.par .shape, .par .scale], false,
    "quant/qweibull.ipp:109-112"⟩,
  ⟨⟨.q, .weibull, .scalar⟩, [.shape, .scale], none, .armaDist, ⟨.q, .weibull, .vec⟩, [.par .shape, .par .scale], false,
    "quant/qweibull.ipp:119-122"⟩,
  ⟨⟨.q, .weibull, .scalar⟩, [.shape, .scale], none, .blazeDist, ⟨.q, .weibull, .vec⟩, [.par .shape, .par .scale], false,
    "quant/qweibull.ipp:137-140"⟩,
  ⟨⟨.q, .weibull, .scalar⟩, [.shape, .scale], none, .eigenDist, ⟨.q, .weibull, .vec⟩, [.par .shape, .par .scale], false,
    "quant/qweibull.ipp:147-150"⟩,
  ⟨⟨.r, .bern, .vec⟩, [.prob], some .engine, .randVec, ⟨.r, .bern, .scalar⟩, [.par .prob], true,
    "rand/rbern.ipp:58-62"⟩,
  ⟨⟨.r, .bern, .matCheck⟩, [.prob], some .engine, .stdvecRand, ⟨.r, .bern, .scalar⟩, [.par .prob], true,
    "rand/rbern.ipp:69-72"⟩,
  ⟨⟨.r, .bern, .matCheck⟩, [.prob], some .engine, .mainMat, ⟨.r, .bern, .scalar⟩, [.par .prob], true,
    "rand/rbern.ipp:79-82"⟩,
  ⟨⟨.r, .bern, .scalar⟩, [.prob], some .engine, .genMat, ⟨.r, .bern, .matCheck⟩, [.par .prob], true,
    "rand/rbern.ipp:91-94"⟩,
  ⟨⟨.r, .bern, .scalar⟩, [.prob], some .seed, .genMat, ⟨.r, .bern, .matCheck⟩, [.par .prob], true,
    "rand/rbern.ipp:99-103"⟩,
  ⟨⟨.r, .beta, .vec⟩, [.a, .b], some .engine, .randVec, ⟨.r, .beta, .scalar⟩, [.par .a, .par .b], true,
    "rand/rbeta.ipp:85-89"⟩,
  ⟨⟨.r, .beta, .matCheck⟩, [.a, .b], some .engine, .stdvecRand, ⟨.r, .beta, .scalar⟩, [.par .a, .par .b], true,
    "rand/rbeta.ipp:96-99"⟩,
  ⟨⟨.r, .beta, .matCheck⟩, [.a, .b], some .engine, .mainMat, ⟨.r, .beta, .scalar⟩, [.par .a, .par .b], true,
    "rand/rbeta.ipp:106-109"⟩,
  ⟨⟨.r, .beta, .scalar⟩, [.a, .b], some .engine, .genMat, ⟨.r, .beta, .matCheck⟩, [.par .a, .par .b], true,
    "rand/rbeta.ipp:118-121"⟩,
  ⟨⟨.r, .beta, .scalar⟩, [.a, .b], some .seed, .genMat, ⟨.r, .beta, .matCheck⟩, [.par .a, .par .b], true,
    "rand/rbeta.ipp:126-130"⟩,
  ⟨⟨.r, .binom, .vec⟩, [.nTrials, .prob], some .engine, .randVec, ⟨.r, .binom, .scalar⟩, [.par .nTrials, .par .prob], true,
    "rand/rbinom.ipp:68-72"⟩,
  ⟨⟨.r, .binom, .matCheck⟩, [.nTrials, .prob], some .engine, .stdvecRand, ⟨.r, .binom, .scalar⟩, [.par .nTrials, .par .prob], true,
    "rand/rbinom.ipp:79-82"⟩,
  ⟨⟨.r, .binom, .matCheck⟩, [.nTrials, .prob], some .engine, .mainMat, ⟨.r, .binom, .scalar⟩, [.par .nTrials, .par .prob], true,
    "rand/rbinom.ipp:89-92"⟩,
  ⟨⟨.r, .binom, .scalar⟩, [.nTrials, .prob], some .engine, .genMat, ⟨.r, .binom, .matCheck⟩, [.par .nTrials, .par .prob], true,
    "rand/rbinom.ipp:101-104"⟩,
  ⟨⟨.r, .binom, .scalar⟩, [.nTrials, .prob], some .seed, .genMat, ⟨.r, .binom, .matCheck⟩, [.par .nTrials, .par .prob], true,
    "rand/rbinom.ipp:109-113"⟩,
  ⟨⟨.r, .cauchy, .vec⟩, [.mu, .sigma], some .engine, .randVec, ⟨.r, .cauchy, .scalar⟩, [.par .mu, .par .sigma], true,
    "rand/rcauchy.ipp:79-83"⟩,
  ⟨⟨.r, .cauchy, .matCheck⟩, [.mu, .sigma], some .engine, .stdvecRand, ⟨.r, .cauchy, .scalar⟩, [.par .mu, .par .sigma], true,
    "rand/rcauchy.ipp:90-93"⟩,
  ⟨⟨.r, .cauchy, .matCheck⟩, [.mu, .sigma], some .engine, .mainMat, ⟨.r, .cauchy, .scalar⟩, [.par .mu, .par .sigma], true,
    "rand/rcauchy.ipp:100-103"⟩,
  ⟨⟨.r, .cauchy, .scalar⟩, [.mu, .sigma], some .engine, .genMat, ⟨.r, .cauchy, .matCheck⟩, [.par .mu, .par .sigma], true,
    "rand/rcauchy.ipp:112-115"⟩,
  ⟨⟨.r, .cauchy, .scalar⟩, [.mu, .sigma], some .seed, .genMat, ⟨.r, .cauchy, .matCheck⟩, [.par .mu, .par .sigma], true,
    "rand/rcauchy.ipp:120-124"⟩,
  ⟨⟨.r, .chisq, .vec⟩, [.dof], some .engine, .randVec, ⟨.r, .chisq, .scalar⟩, [.par .dof], true,
    "rand/rchisq.ipp:71-75"⟩,
  ⟨⟨.r, .chisq, .matCheck⟩, [.dof], some .engine, .stdvecRand, ⟨.r, .chisq, .scalar⟩, [.par .dof], true,
    "rand/rchisq.ipp:82-85"⟩,
  ⟨⟨.r, .chisq, .matCheck⟩, [.dof], some .engine, .mainMat, ⟨.r, .chisq, .scalar⟩, [.par .dof], true,
    "rand/rchisq.ipp:92-95"⟩,
  ⟨⟨.r, .chisq, .scalar⟩, [.dof], some .engine, .genMat, ⟨.r, .chisq, .matCheck⟩, [.par .dof], true,
    "rand/rchisq.ipp:104-107"⟩,
  ⟨⟨.r, .chisq, .scalar⟩, [.dof], some .seed, .genMat, ⟨.r, .chisq, .matCheck⟩, [.par .dof], true,
    "rand/rchisq.ipp:112-116"⟩,
  ⟨⟨.r, .exp, .vec⟩, [.rate], some .engine, .randVec, ⟨.r, .exp, .scalar⟩, [.par .rate], true,
    "rand/rexp.ipp:71-75"⟩,
  ⟨⟨.r, .exp, .matCheck⟩, [.dof], some .engine, .stdvecRand, ⟨.r, .exp, .scalar⟩, [.par .dof], true,
    "rand/rexp.ipp:82-85"⟩,
  ⟨⟨.r, .exp, .matCheck⟩, [.dof], some .engine, .mainMat, ⟨.r, .exp, .scalar⟩, [.par .dof], true,
    "rand/rexp.ipp:92-95"⟩,
  ⟨⟨.r, .exp, .scalar⟩, [.rate], some .engine, .genMat, ⟨.r, .exp, .matCheck⟩, [.par .rate], true,
    "rand/rexp.ipp:104-107"⟩,
  ⟨⟨.r, .exp, .scalar⟩, [.rate], some .seed, .genMat, ⟨.r, .exp, .matCheck⟩, [.par .rate], true,
    "rand/rexp.ipp:112-116"⟩,
  ⟨⟨.r, .f, .vec⟩, [.df1, .df2], some .engine, .randVec, ⟨.r, .f, .scalar⟩, [.par .df1, .par .df2], true,
    "rand/rf.ipp:85-89"⟩,
  ⟨⟨.r, .f, .matCheck⟩, [.df1, .df2], some .engine, .stdvecRand, ⟨.r, .f, .scalar⟩, [.par .df1, .par .df2], true,
    "rand/rf.ipp:96-99"⟩,
  ⟨⟨.r, .f, .matCheck⟩, [.df1, .df2], some .engine, .mainMat, ⟨.r, .f, .scalar⟩, [.par .df1, .par .df2], true,
    "rand/rf.ipp:106-109"⟩,
  ⟨⟨.r, .f, .scalar⟩, [.df1, .df2], some .engine, .genMat, ⟨.r, .f, .matCheck⟩, [.par .df1, .par .df2], true,
    "rand/rf.ipp:118-121"⟩,
  ⟨⟨.r, .f, .scalar⟩, [.df1, .df2], some .seed, .genMat, ⟨.r, .f, .matCheck⟩, [.par .df1, .par .df2], true,
    "rand/rf.ipp:126-130"⟩,
  ⟨⟨.r, .gamma, .vec⟩, [.shape, .scale], some .engine, .randVec, ⟨.r, .gamma, .scalar⟩, [.par .shape, .par .scale], true,
    "rand/rgamma.ipp:116-120"⟩,
  ⟨⟨.r, .gamma, .matCheck⟩, [.shape, .scale], some .engine, .stdvecRand, ⟨.r, .gamma, .scalar⟩, [.par .shape, .par .scale], true,
    "rand/rgamma.ipp:127-130"⟩,
  ⟨⟨.r, .gamma, .matCheck⟩, [.shape, .scale], some .engine, .mainMat, ⟨.r, .gamma, .scalar⟩, [.par .shape, .par .scale], true,
    "rand/rgamma.ipp:137-140"⟩,
  ⟨⟨.r, .gamma, .scalar⟩, [.shape, .scale], some .engine, .genMat, ⟨.r, .gamma, .matCheck⟩, [.par .shape, .par .scale], true,
    "rand/rgamma.ipp:149-152"⟩,
  ⟨⟨.r, .gamma, .scalar⟩, [.shape, .scale], some .seed, .genMat, ⟨.r, .gamma, .matCheck⟩, [.par .shape, .par .scale], true,
    "rand/rgamma.ipp:157-161"⟩,
  ⟨⟨.r, .invgamma, .vec⟩, [.shape, .rate], some .engine, .randVec, ⟨.r, .invgamma, .scalar⟩, [.par .shape, .par .rate], true,
    "rand/rinvgamma.ipp:77-81"⟩,
  ⟨⟨.r, .invgamma, .matCheck⟩, [.shape, .rate], some .engine, .stdvecRand, ⟨.r, .invgamma, .scalar⟩, [.par .shape, .par .rate], true,
    "rand/rinvgamma.ipp:88-91"⟩,
  ⟨⟨.r, .invgamma, .matCheck⟩, [.shape, .rate], some .engine, .mainMat, ⟨.r, .invgamma, .scalar⟩, [.par .shape, .par .rate], true,
    "rand/rinvgamma.ipp:98-101"⟩,
  ⟨⟨.r, .invgamma, .scalar⟩, [.shape, .rate], some .engine, .genMat, ⟨.r, .invgamma, .matCheck⟩, [.par .shape, .par .rate], true,
    "rand/rinvgamma.ipp:110-113"⟩,
  ⟨⟨.r, .invgamma, .scalar⟩, [.shape, .rate], some .seed, .genMat, ⟨.r, .invgamma, .matCheck⟩, [.par .shape, .par .rate], true,
    "rand/rinvgamma.ipp:118-122"⟩,
  ⟨⟨.r, .invgauss, .vec⟩, [.mu, .lambda], some .engine, .randVec, ⟨.r, .invgauss, .scalar⟩, [.par .mu, .par .lambda], true,
    "rand/rinvgauss.ipp:93-97"⟩,
  ⟨⟨.r, .invgauss, .matCheck⟩, [.mu, .lambda], some .engine, .stdvecRand, ⟨.r, .invgauss, .scalar⟩, [.par .mu, .par .lambda], true,
    "rand/rinvgauss.ipp:104-107"⟩,
  ⟨⟨.r, .invgauss, .matCheck⟩, [.mu, .lambda], some .engine, .mainMat, ⟨.r, .invgauss, .scalar⟩, [.par .mu, .par .lambda], true,
    "rand/rinvgauss.ipp:114-117"⟩,
  ⟨⟨.r, .invgauss, .scalar⟩, [.mu, .lambda], some .engine, .genMat, ⟨.r, .invgauss, .matCheck⟩, [.par .mu, .par .lambda], true,
    "rand/rinvgauss.ipp:126-129"⟩,
  ⟨⟨.r, .invgauss, .scalar⟩, [.mu, .lambda], some .seed, .genMat, ⟨.r, .invgauss, .matCheck⟩, [.par .mu, .par .lambda], true,
    "rand/rinvgauss.ipp:134-138"⟩,
  ⟨⟨.r, .laplace, .vec⟩, [.mu, .sigma], some .engine, .randVec, ⟨.r, .laplace, .scalar⟩, [.par .mu, .par .sigma], true,
    "rand/rlaplace.ipp:79-83"⟩,
  ⟨⟨.r, .laplace, .matCheck⟩, [.mu, .sigma], some .engine, .stdvecRand, ⟨.r, .laplace, .scalar⟩, [.par .mu, .par .sigma], true,
    "rand/rlaplace.ipp:90-93"⟩,
  ⟨⟨.r, .laplace, .matCheck⟩, [.mu, .sigma], some .engine, .mainMat, ⟨.r, .laplace, .scalar⟩, [.par .mu, .par .sigma], true,
    "rand/rlaplace.ipp:100-103"⟩,
  ⟨⟨.r, .laplace, .scalar⟩, [.mu, .sigma], some .engine, .genMat, ⟨.r, .laplace, .matCheck⟩, [.par .mu, .par .sigma], true,
    "rand/rlaplace.ipp:112-115"⟩,
  ⟨⟨.r, .laplace, .scalar⟩, [.mu, .sigma], some .seed, .genMat, ⟨.r, .laplace, .matCheck⟩, [.par .mu, .par .sigma], true,
    "rand/rlaplace.ipp:120-124"⟩,
  ⟨⟨.r, .lnorm, .vec⟩, [.mu, .sigma], some .engine, .randVec, ⟨.r, .lnorm, .scalar⟩, [.par .mu, .par .sigma], true,
    "rand/rlnorm.ipp:79-82"⟩,
  ⟨⟨.r, .lnorm, .matCheck⟩, [.mu, .sigma], some .engine, .stdvecRand, ⟨.r, .lnorm, .scalar⟩, [.par .mu, .par .sigma], true,
    "rand/rlnorm.ipp:89-92"⟩,
  ⟨⟨.r, .lnorm, .matCheck⟩, [.mu, .sigma], some .engine, .mainMat, ⟨.r, .lnorm, .scalar⟩, [.par .mu, .par .sigma], true,
    "rand/rlnorm.ipp:99-102"⟩,
  ⟨⟨.r, .lnorm, .scalar⟩, [.mu, .sigma], some .engine, .genMat, ⟨.r, .lnorm, .matCheck⟩, [.par .mu, .par .sigma], true,
    "rand/rlnorm.ipp:111-114"⟩,
  ⟨⟨.r, .lnorm, .scalar⟩, [.mu, .sigma], some .seed, .genMat, ⟨.r, .lnorm, .matCheck⟩, [.par .mu, .par .sigma], true,
    "rand/rlnorm.ipp:119-123"⟩,
  ⟨⟨.r, .logis, .vec⟩, [.mu, .sigma], some .engine, .randVec, ⟨.r, .logis, .scalar⟩, [.par .mu, .par .sigma], true,
    "rand/rlogis.ipp:79-83"⟩,
  ⟨⟨.r, .logis, .matCheck⟩, [.mu, .sigma], some .engine, .stdvecRand, ⟨.r, .logis, .scalar⟩, [.par .mu, .par .sigma], true,
    "rand/rlogis.ipp:90-93"⟩,
  ⟨⟨.r, .logis, .matCheck⟩, [.mu, .sigma], some .engine, .mainMat, ⟨.r, .logis, .scalar⟩, [.par .mu, .par .sigma], true,
    "rand/rlogis.ipp:100-103"⟩,
  ⟨⟨.r, .logis, .scalar⟩, [.mu, .sigma], some .engine, .genMat, ⟨.r, .logis, .matCheck⟩, [.par .mu, .par .sigma], true,
    "rand/rlogis.ipp:112-115"⟩,
  ⟨⟨.r, .logis, .scalar⟩, [.mu, .sigma], some .seed, .genMat, ⟨.r, .logis, .matCheck⟩, [.par .mu, .par .sigma], true,
    "rand/rlogis.ipp:120-124"⟩,
  ⟨⟨.r, .norm, .vec⟩, [.mu, .sigma], some .engine, .randVec, ⟨.r, .norm, .scalar⟩, [.par .mu, .par .sigma], true,
    "rand/rnorm.ipp:91-95"⟩,
  ⟨⟨.r, .norm, .matCheck⟩, [.mu, .sigma], some .engine, .stdvecRand, ⟨.r, .norm, .scalar⟩, [.par .mu, .par .sigma], true,
    "rand/rnorm.ipp:102-105"⟩,
  ⟨⟨.r, .norm, .matCheck⟩, [.mu, .sigma], some .engine, .mainMat, ⟨.r, .norm, .scalar⟩, [.par .mu, .par .sigma], true,
    "rand/rnorm.ipp:112-115"⟩,
  ⟨⟨.r, .norm, .scalar⟩, [.mu, .sigma], some .engine, .genMat, ⟨.r, .norm, .matCheck⟩, [.par .mu, .par .sigma], true,
    "rand/rnorm.ipp:124-127"⟩,
  ⟨⟨.r, .norm, .scalar⟩, [.mu, .sigma], some .seed, .genMat, ⟨.r, .norm, .matCheck⟩, [.par .mu, .par .sigma], true,
    "rand/rnorm.ipp:132-136"⟩,
  ⟨⟨.r, .norm, .scalar⟩, [], some .engine, .genMat, ⟨.r, .norm, .matCheck⟩, [.const 0, .const 1], true,
    "rand/rnorm.ipp:141-144"⟩,
  ⟨⟨.r, .norm, .scalar⟩, [], some .seed, .genMat, ⟨.r, .norm, .matCheck⟩, [.const 0, .const 1], true,
    "rand/rnorm.ipp:149-153"⟩,
  ⟨⟨.r, .pois, .vec⟩, [.rate], some .engine, .randVec, ⟨.r, .pois, .scalar⟩, [.par .rate], true,
    "rand/rpois.ipp:71-75"⟩,
  ⟨⟨.r, .pois, .matCheck⟩, [.dof], some .engine, .stdvecRand, ⟨.r, .pois, .scalar⟩, [.par .dof], true,
    "rand/rpois.ipp:82-85"⟩,
  ⟨⟨.r, .pois, .matCheck⟩, [.dof], some .engine, .mainMat, ⟨.r, .pois, .scalar⟩, [.par .dof], true,
    "rand/rpois.ipp:92-95"⟩,
  ⟨⟨.r, .pois, .scalar⟩, [.rate], some .engine, .genMat, ⟨.r, .pois, .matCheck⟩, [.par .rate], true,
    "rand/rpois.ipp:104-107"⟩,
  ⟨⟨.r, .pois, .scalar⟩, [.rate], some .seed, .genMat, ⟨.r, .pois, .matCheck⟩, [.par .rate], true,
    "rand/rpois.ipp:112-116"⟩,
  ⟨⟨.r, .radem, .vec⟩, [.prob], some .engine, .randVec, ⟨.r, .radem, .scalar⟩, [.par .prob], true,
    "rand/rradem.ipp:58-62"⟩,
  ⟨⟨.r, .radem, .matCheck⟩, [.prob], some .engine, .stdvecRand, ⟨.r, .radem, .scalar⟩, [.par .prob], true,
    "rand/rradem.ipp:69-72"⟩,
  ⟨⟨.r, .radem, .matCheck⟩, [.prob], some .engine, .mainMat, ⟨.r, .radem, .scalar⟩, [.par .prob], true,
    "rand/rradem.ipp:79-82"⟩,
  ⟨⟨.r, .radem, .scalar⟩, [.prob], some .engine, .genMat, ⟨.r, .radem, .matCheck⟩, [.par .prob], true,
    "rand/rradem.ipp:91-94"⟩,
  ⟨⟨.r, .radem, .scalar⟩, [.prob], some .seed, .genMat, ⟨.r, .radem, .matCheck⟩, [.par .prob], true,
    "rand/rradem.ipp:99-103"⟩,
  ⟨⟨.r, .t, .vec⟩, [.dof], some .engine, .randVec, ⟨.r, .t, .scalar⟩, [.par .dof], true,
    "rand/rt.ipp:76-80"⟩,
  ⟨⟨.r, .t, .matCheck⟩, [.dof], some .engine, .stdvecRand, ⟨.r, .t, .scalar⟩, [.par .dof], true,
    "rand/rt.ipp:87-90"⟩,
  ⟨⟨.r, .t, .matCheck⟩, [.dof], some .engine, .mainMat, ⟨.r, .t, .scalar⟩, [.par .dof], true,
    "rand/rt.ipp:97-100"⟩,
  ⟨⟨.r, .t, .scalar⟩, [.dof], some .engine, .genMat, ⟨.r, .t, .matCheck⟩, [.par .dof], true,
    "rand/rt.ipp:109-112"⟩,
  ⟨⟨.r, .t, .scalar⟩, [.dof], some .seed, .genMat, ⟨.r, .t, .matCheck⟩, [.par .dof], true,
    "rand/rt.ipp:117-121"⟩,
  ⟨⟨.r, .unif, .vec⟩, [.a, .b], some .engine, .randVec, ⟨.r, .unif, .scalar⟩, [.par .a, .par .b], true,
    "rand/runif.ipp:93-97"⟩,
  ⟨⟨.r, .unif, .matCheck⟩, [.a, .b], some .engine, .stdvecRand, ⟨.r, .unif, .scalar⟩, [.par .a, .par .b], true,
    "rand/runif.ipp:104-107"⟩,
  ⟨⟨.r, .unif, .matCheck⟩, [.a, .b], some .engine, .mainMat, ⟨.r, .unif, .scalar⟩, [.par .a, .par .b], true,
    "rand/runif.ipp:114-117"⟩,
  ⟨⟨.r, .unif, .scalar⟩, [.a, .b], some .engine, .genMat, ⟨.r, .unif, .matCheck⟩, [.par .a, .par .b], true,
    "rand/runif.ipp:126-129"⟩,
  ⟨⟨.r, .unif, .scalar⟩, [.a, .b], some .seed, .genMat, ⟨.r, .unif, .matCheck⟩, [.par .a, .par .b], true,
    "rand/runif.ipp:134-138"⟩,
  ⟨⟨.r, .weibull, .vec⟩, [.shape, .scale], some .engine, .randVec, ⟨.r, .weibull, .scalar⟩, [.par .shape, .par .scale], true,
    "rand/rweibull.ipp:80-84"⟩,
  ⟨⟨.r, .weibull, .matCheck⟩, [.shape, .scale], some .engine, .stdvecRand, ⟨.r, .weibull, .scalar⟩, [.par .shape, .par .scale], true,
    "rand/rweibull.ipp:91-94"⟩,
  ⟨⟨.r, .weibull, .matCheck⟩, [.shape, .scale], some .engine, .mainMat, ⟨.r, .weibull, .scalar⟩, [.par .shape, .par .scale], true,
    "rand/rweibull.ipp:101-104"⟩,
  ⟨⟨.r, .weibull, .scalar⟩, [.shape, .scale], some .engine, .genMat, ⟨.r, .weibull, .matCheck⟩, [.par .shape, .par .scale], true,
    "rand/rweibull.ipp:113-116"⟩,
  ⟨⟨.r, .weibull, .scalar⟩, [.shape, .scale], some .seed, .genMat, ⟨.r, .weibull, .matCheck⟩, [.par .shape, .par .scale], true,
    "rand/rweibull.ipp:121-125"⟩]

/-- a scalar overload; the point `x` or `p` is the first parameter of `d`, `p`, `q` functions and the engine the last of
`r` functions, both left out -/
structure ScalarSig where
  fn : Name
  params : List Par
  src : String

/-- {dens,prob,quant,rand}/*.ipp, the scalar overloads with all parameters -/
def scalars : List ScalarSig := [
  ⟨⟨.d, .bern, .scalar⟩, [.prob, .logForm], "dens/dbern.ipp:62"⟩,
  ⟨⟨.d, .beta, .scalar⟩, [.a, .b, .logForm], "dens/dbeta.ipp:113"⟩,
  ⟨⟨.d, .binom, .scalar⟩, [.nTrials, .prob, .logForm], "dens/dbinom.ipp:87"⟩,
  ⟨⟨.d, .cauchy, .scalar⟩, [.mu, .sigma, .logForm], "dens/dcauchy.ipp:93"⟩,
  ⟨⟨.d, .chisq, .scalar⟩, [.dof, .logForm], "dens/dchisq.ipp:90"⟩,
  ⟨⟨.d, .exp, .scalar⟩, [.rate, .logForm], "dens/dexp.ipp:76"⟩,
  ⟨⟨.d, .f, .scalar⟩, [.df1, .df2, .logForm], "dens/df.ipp:148"⟩,
  ⟨⟨.d, .gamma, .scalar⟩, [.shape, .scale, .logForm], "dens/dgamma.ipp:96"⟩,
  ⟨⟨.d, .invgamma, .scalar⟩, [.shape, .rate, .logForm], "dens/dinvgamma.ipp:96"⟩,
  ⟨⟨.d, .invgauss, .scalar⟩, [.mu, .lambda, .logForm], "dens/dinvgauss.ipp:117"⟩,
  ⟨⟨.d, .laplace, .scalar⟩, [.mu, .sigma, .logForm], "dens/dlaplace.ipp:94"⟩,
  ⟨⟨.d, .lnorm, .scalar⟩, [.mu, .sigma, .logForm], "dens/dlnorm.ipp:96"⟩,
  ⟨⟨.d, .logis, .scalar⟩, [.mu, .sigma, .logForm], "dens/dlogis.ipp:89"⟩,
  ⟨⟨.d, .norm, .scalar⟩, [.mu, .sigma, .logForm], "dens/dnorm.ipp:94"⟩,
  ⟨⟨.d, .pois, .scalar⟩, [.rate, .logForm], "dens/dpois.ipp:68"⟩,
  ⟨⟨.d, .radem, .scalar⟩, [.prob, .logForm], "dens/dradem.ipp:62"⟩,
  ⟨⟨.d, .t, .scalar⟩, [.dof, .logForm], "dens/dt.ipp:92"⟩,
  ⟨⟨.d, .unif, .scalar⟩, [.a, .b, .logForm], "dens/dunif.ipp:76"⟩,
  ⟨⟨.d, .weibull, .scalar⟩, [.shape, .scale, .logForm], "dens/dweibull.ipp:76"⟩,
  ⟨⟨.p, .bern, .scalar⟩, [.prob, .logForm], "prob/pbern.ipp:62"⟩,
  ⟨⟨.p, .beta, .scalar⟩, [.a, .b, .logForm], "prob/pbeta.ipp:95"⟩,
  ⟨⟨.p, .binom, .scalar⟩, [.nTrials, .prob, .logForm], "prob/pbinom.ipp:67"⟩,
  ⟨⟨.p, .cauchy, .scalar⟩, [.mu, .sigma, .logForm], "prob/pcauchy.ipp:95"⟩,
  ⟨⟨.p, .chisq, .scalar⟩, [.dof, .logForm], "prob/pchisq.ipp:77"⟩,
  ⟨⟨.p, .exp, .scalar⟩, [.rate, .logForm], "prob/pexp.ipp:71"⟩,
  ⟨⟨.p, .f, .scalar⟩, [.df1, .df2, .logForm], "prob/pf.ipp:93"⟩,
  ⟨⟨.p, .gamma, .scalar⟩, [.shape, .scale, .logForm], "prob/pgamma.ipp:97"⟩,
  ⟨⟨.p, .invgamma, .scalar⟩, [.shape, .rate, .logForm], "prob/pinvgamma.ipp:86"⟩,
  ⟨⟨.p, .invgauss, .scalar⟩, [.mu, .lambda, .logForm], "prob/pinvgauss.ipp:113"⟩,
  ⟨⟨.p, .laplace, .scalar⟩, [.mu, .sigma, .logForm], "prob/plaplace.ipp:97"⟩,
  ⟨⟨.p, .lnorm, .scalar⟩, [.mu, .sigma, .logForm], "prob/plnorm.ipp:60"⟩,
  ⟨⟨.p, .logis, .scalar⟩, [.mu, .sigma, .logForm], "prob/plogis.ipp:96"⟩,
  ⟨⟨.p, .norm, .scalar⟩, [.mu, .sigma, .logForm], "prob/pnorm.ipp:100"⟩,
  ⟨⟨.p, .pois, .scalar⟩, [.rate, .logForm], "prob/ppois.ipp:83"⟩,
  ⟨⟨.p, .radem, .scalar⟩, [.prob, .logForm], "prob/pradem.ipp:62"⟩,
  ⟨⟨.p, .t, .scalar⟩, [.dof, .logForm], "prob/pt.ipp:104"⟩,
  ⟨⟨.p, .unif, .scalar⟩, [.a, .b, .logForm], "prob/punif.ipp:73"⟩,
  ⟨⟨.p, .weibull, .scalar⟩, [.shape, .scale, .logForm], "prob/pweibull.ipp:97"⟩,
  ⟨⟨.q, .bern, .scalar⟩, [.prob], "quant/qbern.ipp:62"⟩,
  ⟨⟨.q, .beta, .scalar⟩, [.a, .b], "quant/qbeta.ipp:100"⟩,
  ⟨⟨.q, .binom, .scalar⟩, [.nTrials, .prob], "quant/qbinom.ipp:76"⟩,
  ⟨⟨.q, .cauchy, .scalar⟩, [.mu, .sigma], "quant/qcauchy.ipp:84"⟩,
  ⟨⟨.q, .chisq, .scalar⟩, [.dof], "quant/qchisq.ipp:74"⟩,
  ⟨⟨.q, .exp, .scalar⟩, [.rate], "quant/qexp.ipp:74"⟩,
  ⟨⟨.q, .f, .scalar⟩, [.df1, .df2], "quant/qf.ipp:102"⟩,
  ⟨⟨.q, .gamma, .scalar⟩, [.shape, .scale], "quant/qgamma.ipp:92"⟩,
  ⟨⟨.q, .invgamma, .scalar⟩, [.shape, .rate], "quant/qinvgamma.ipp:92"⟩,
  ⟨⟨.q, .invgauss, .scalar⟩, [.mu, .lambda], "quant/qinvgauss.ipp:124"⟩,
  ⟨⟨.q, .laplace, .scalar⟩, [.mu, .sigma], "quant/qlaplace.ipp:84"⟩,
  ⟨⟨.q, .lnorm, .scalar⟩, [.mu, .sigma], "quant/qlnorm.ipp:69"⟩,
  ⟨⟨.q, .logis, .scalar⟩, [.mu, .sigma], "quant/qlogis.ipp:84"⟩,
  ⟨⟨.q, .norm, .scalar⟩, [.mu, .sigma], "quant/qnorm.ipp:84"⟩,
  ⟨⟨.q, .pois, .scalar⟩, [.rate], "quant/qpois.ipp:102"⟩,
  ⟨⟨.q, .radem, .scalar⟩, [.prob], "quant/qradem.ipp:62"⟩,
  ⟨⟨.q, .t, .scalar⟩, [.dof], "quant/qt.ipp:296"⟩,
  ⟨⟨.q, .unif, .scalar⟩, [.a, .b], "quant/qunif.ipp:77"⟩,
  ⟨⟨.q, .weibull, .scalar⟩, [.shape, .scale], "quant/qweibull.ipp:80"⟩,
  ⟨⟨.r, .bern, .scalar⟩, [.prob], "rand/rbern.ipp:31"⟩,
  ⟨⟨.r, .beta, .scalar⟩, [.a, .b], "rand/rbeta.ipp:61"⟩,
  ⟨⟨.r, .binom, .scalar⟩, [.nTrials, .prob], "rand/rbinom.ipp:31"⟩,
  ⟨⟨.r, .cauchy, .scalar⟩, [.mu, .sigma], "rand/rcauchy.ipp:55"⟩,
  ⟨⟨.r, .chisq, .scalar⟩, [.dof], "rand/rchisq.ipp:47"⟩,
  ⟨⟨.r, .exp, .scalar⟩, [.rate], "rand/rexp.ipp:47"⟩,
  ⟨⟨.r, .f, .scalar⟩, [.df1, .df2], "rand/rf.ipp:61"⟩,
  ⟨⟨.r, .gamma, .scalar⟩, [.shape, .scale], "rand/rgamma.ipp:92"⟩,
  ⟨⟨.r, .invgamma, .scalar⟩, [.shape, .rate], "rand/rinvgamma.ipp:53"⟩,
  ⟨⟨.r, .invgauss, .scalar⟩, [.mu, .lambda], "rand/rinvgauss.ipp:70"⟩,
  ⟨⟨.r, .laplace, .scalar⟩, [.mu, .sigma], "rand/rlaplace.ipp:55"⟩,
  ⟨⟨.r, .lnorm, .scalar⟩, [.mu, .sigma], "rand/rlnorm.ipp:55"⟩,
  ⟨⟨.r, .logis, .scalar⟩, [.mu, .sigma], "rand/rlogis.ipp:55"⟩,
  ⟨⟨.r, .norm, .scalar⟩, [.mu, .sigma], "rand/rnorm.ipp:60"⟩,
  ⟨⟨.r, .pois, .scalar⟩, [.rate], "rand/rpois.ipp:47"⟩,
  ⟨⟨.r, .radem, .scalar⟩, [.prob], "rand/rradem.ipp:31"⟩,
  ⟨⟨.r, .t, .scalar⟩, [.dof], "rand/rt.ipp:52"⟩,
  ⟨⟨.r, .unif, .scalar⟩, [.a, .b], "rand/runif.ipp:61"⟩,
  ⟨⟨.r, .weibull, .scalar⟩, [.shape, .scale], "rand/rweibull.ipp:56"⟩]

end Stats.Wrap

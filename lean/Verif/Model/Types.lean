import Verif.Model.Prob
import Verif.Model.Rand

/-!
# Argument types: how the templates pick the type they compute in

The other model files work at one floating type. This file models the layer above: which type that is
for a call with given C++ argument types, how each argument is converted to it, and the functions
that skip the conversion (`pbinom`, `rbern`, `rradem`, `rbinom`).

Integer sizes are those of the LP64 data model (`int` 32 bits, `long` and `long long` 64 bits).
-/

open Classical

namespace Stats

open Fl

/-- The standard C++ arithmetic types (without the `charN_t` types and `wchar_t`). -/
inductive Ty
  | bool | char | schar | uchar | short | ushort | int | uint | long | ulong | llong | ullong
  | float | double | ldouble
  deriving DecidableEq

namespace Ty

/-- `std::is_integral` -/
def isIntegral : Ty → Bool
  | float | double | ldouble => false
  | _ => true

/-- Integral promotion [conv.prom]: every type of rank below `int` becomes `int`. -/
def promote : Ty → Ty
  | bool | char | schar | uchar | short | ushort => int
  | t => t

/-- The integer conversion rank [conv.rank] of a promoted type. -/
def rank : Ty → ℕ
  | int | uint => 1
  | long | ulong => 2
  | llong | ullong => 3
  | _ => 0

/-- Whether a promoted integer type is unsigned. -/
def isUnsigned : Ty → Bool
  | uint | ulong | ullong => true
  | _ => false

/-- Width in bits (LP64). -/
def bits : Ty → ℕ
  | int | uint => 32
  | long | ulong | llong | ullong => 64
  | _ => 0

/-- The unsigned type of the same rank. -/
def toUnsigned : Ty → Ty
  | int => uint
  | long => ulong
  | llong => ullong
  | t => t

/-- The usual arithmetic conversions for two promoted integer types of different signedness, `s`
signed and `u` unsigned [expr.arith.conv]. -/
def mixSign (s u : Ty) : Ty :=
  if s.rank ≤ u.rank then u else if u.bits < s.bits then s else s.toUnsigned

/-- The usual arithmetic conversions [expr.arith.conv]. -/
def usual (a b : Ty) : Ty :=
  if a = ldouble ∨ b = ldouble then ldouble
  else if a = double ∨ b = double then double
  else if a = float ∨ b = float then float
  else
    let p := a.promote
    let q := b.promote
    if p = q then p
    else if p.isUnsigned = q.isUnsigned then (if p.rank ≤ q.rank then q else p)
    else if p.isUnsigned then mixSign q p else mixSign p q

/-- `std::common_type<A,B>`: the type of `false ? declval<A>() : declval<B>()`, decayed. For two
equal arithmetic types that is the type itself, otherwise the usual arithmetic conversions apply. -/
def common2 (a b : Ty) : Ty := if a = b then a else usual a b

/-- `std::common_type<T...>`, a left fold; misc/statslib_options.hpp:86-87 -/
def commonT (t : Ty) (ts : List Ty) : Ty := ts.foldl common2 t

/-- misc/statslib_options.hpp:83-84 -/
def returnT (t : Ty) : Ty := if t.isIntegral then double else t

/-- misc/statslib_options.hpp:89-90 -/
def commonReturnT (t : Ty) (ts : List Ty) : Ty := returnT (commonT t ts)

end Ty

/-! ## The scalar signatures -/

/-- A parameter of a scalar function: a template parameter of its own, or `llint_t`. (The `log_form`
flag and the engine are left out.) -/
inductive Par | tmpl | llint
  deriving DecidableEq

/-- The declared return type, in terms of the template parameters. -/
inductive Ret | commonReturnT | returnT | bare
  deriving DecidableEq

/-- A scalar signature: name, place of the declaration, parameters, return type, and whether the body
casts its template parameters to the return type before using them. -/
structure Sig where
  name : String
  src : String
  params : List Par
  ret : Ret
  casts : Bool

/-- Every scalar function of the library, from the declarations in {dens,prob,quant,rand}/*.hpp. The
last column is read off the `.ipp` file: `static_cast<TC>` in `*_type_check` or
`static_cast<return_t<T>>` in the function itself; missing in prob/pbinom.ipp:67-71,
rand/rbern.ipp:31-37, rand/rradem.ipp:31-37 and rand/rbinom.ipp:31-47. -/
def sigs : List Sig := [
  ⟨"dbern", "dens/dbern.hpp:45", [.llint, .tmpl], .returnT, true⟩,
  ⟨"dbeta", "dens/dbeta.hpp:46", [.tmpl, .tmpl, .tmpl], .commonReturnT, true⟩,
  ⟨"dbinom", "dens/dbinom.hpp:46", [.llint, .llint, .tmpl], .returnT, true⟩,
  ⟨"dcauchy", "dens/dcauchy.hpp:46", [.tmpl, .tmpl, .tmpl], .commonReturnT, true⟩,
  ⟨"dchisq", "dens/dchisq.hpp:45", [.tmpl, .tmpl], .commonReturnT, true⟩,
  ⟨"dexp", "dens/dexp.hpp:45", [.tmpl, .tmpl], .commonReturnT, true⟩,
  ⟨"df", "dens/df.hpp:46", [.tmpl, .tmpl, .tmpl], .commonReturnT, true⟩,
  ⟨"dgamma", "dens/dgamma.hpp:46", [.tmpl, .tmpl, .tmpl], .commonReturnT, true⟩,
  ⟨"dinvgamma", "dens/dinvgamma.hpp:46", [.tmpl, .tmpl, .tmpl], .commonReturnT, true⟩,
  ⟨"dinvgauss", "dens/dinvgauss.hpp:46", [.tmpl, .tmpl, .tmpl], .commonReturnT, true⟩,
  ⟨"dlaplace", "dens/dlaplace.hpp:46", [.tmpl, .tmpl, .tmpl], .commonReturnT, true⟩,
  ⟨"dlnorm", "dens/dlnorm.hpp:46", [.tmpl, .tmpl, .tmpl], .commonReturnT, true⟩,
  ⟨"dlogis", "dens/dlogis.hpp:46", [.tmpl, .tmpl, .tmpl], .commonReturnT, true⟩,
  ⟨"dnorm", "dens/dnorm.hpp:46", [.tmpl, .tmpl, .tmpl], .commonReturnT, true⟩,
  ⟨"dpois", "dens/dpois.hpp:45", [.llint, .tmpl], .returnT, true⟩,
  ⟨"dradem", "dens/dradem.hpp:45", [.llint, .tmpl], .returnT, true⟩,
  ⟨"dt", "dens/dt.hpp:45", [.tmpl, .tmpl], .commonReturnT, true⟩,
  ⟨"dunif", "dens/dunif.hpp:46", [.tmpl, .tmpl, .tmpl], .commonReturnT, true⟩,
  ⟨"dweibull", "dens/dweibull.hpp:46", [.tmpl, .tmpl, .tmpl], .commonReturnT, true⟩,
  ⟨"pbern", "prob/pbern.hpp:45", [.llint, .tmpl], .returnT, true⟩,
  ⟨"pbeta", "prob/pbeta.hpp:46", [.tmpl, .tmpl, .tmpl], .commonReturnT, true⟩,
  ⟨"pbinom", "prob/pbinom.hpp:45", [.llint, .llint, .tmpl], .bare, false⟩,
  ⟨"pcauchy", "prob/pcauchy.hpp:46", [.tmpl, .tmpl, .tmpl], .commonReturnT, true⟩,
  ⟨"pchisq", "prob/pchisq.hpp:45", [.tmpl, .tmpl], .commonReturnT, true⟩,
  ⟨"pexp", "prob/pexp.hpp:45", [.tmpl, .tmpl], .commonReturnT, true⟩,
  ⟨"pf", "prob/pf.hpp:46", [.tmpl, .tmpl, .tmpl], .commonReturnT, true⟩,
  ⟨"pgamma", "prob/pgamma.hpp:46", [.tmpl, .tmpl, .tmpl], .commonReturnT, true⟩,
  ⟨"pinvgamma", "prob/pinvgamma.hpp:46", [.tmpl, .tmpl, .tmpl], .commonReturnT, true⟩,
  ⟨"pinvgauss", "prob/pinvgauss.hpp:46", [.tmpl, .tmpl, .tmpl], .commonReturnT, true⟩,
  ⟨"plaplace", "prob/plaplace.hpp:46", [.tmpl, .tmpl, .tmpl], .commonReturnT, true⟩,
  ⟨"plnorm", "prob/plnorm.hpp:46", [.tmpl, .tmpl, .tmpl], .commonReturnT, true⟩,
  ⟨"plogis", "prob/plogis.hpp:46", [.tmpl, .tmpl, .tmpl], .commonReturnT, true⟩,
  ⟨"pnorm", "prob/pnorm.hpp:46", [.tmpl, .tmpl, .tmpl], .commonReturnT, true⟩,
  ⟨"ppois", "prob/ppois.hpp:44", [.llint, .tmpl], .returnT, true⟩,
  ⟨"pradem", "prob/pradem.hpp:45", [.llint, .tmpl], .returnT, true⟩,
  ⟨"pt", "prob/pt.hpp:45", [.tmpl, .tmpl], .commonReturnT, true⟩,
  ⟨"punif", "prob/punif.hpp:46", [.tmpl, .tmpl, .tmpl], .commonReturnT, true⟩,
  ⟨"pweibull", "prob/pweibull.hpp:46", [.tmpl, .tmpl, .tmpl], .commonReturnT, true⟩,
  ⟨"qbern", "quant/qbern.hpp:44", [.tmpl, .tmpl], .commonReturnT, true⟩,
  ⟨"qbeta", "quant/qbeta.hpp:45", [.tmpl, .tmpl, .tmpl], .commonReturnT, true⟩,
  ⟨"qbinom", "quant/qbinom.hpp:45", [.tmpl, .llint, .tmpl], .commonReturnT, true⟩,
  ⟨"qcauchy", "quant/qcauchy.hpp:45", [.tmpl, .tmpl, .tmpl], .commonReturnT, true⟩,
  ⟨"qchisq", "quant/qchisq.hpp:44", [.tmpl, .tmpl], .commonReturnT, true⟩,
  ⟨"qexp", "quant/qexp.hpp:44", [.tmpl, .tmpl], .commonReturnT, true⟩,
  ⟨"qf", "quant/qf.hpp:45", [.tmpl, .tmpl, .tmpl], .commonReturnT, true⟩,
  ⟨"qgamma", "quant/qgamma.hpp:45", [.tmpl, .tmpl, .tmpl], .commonReturnT, true⟩,
  ⟨"qinvgamma", "quant/qinvgamma.hpp:45", [.tmpl, .tmpl, .tmpl], .commonReturnT, true⟩,
  ⟨"qinvgauss", "quant/qinvgauss.hpp:45", [.tmpl, .tmpl, .tmpl], .commonReturnT, true⟩,
  ⟨"qlaplace", "quant/qlaplace.hpp:45", [.tmpl, .tmpl, .tmpl], .commonReturnT, true⟩,
  ⟨"qlnorm", "quant/qlnorm.hpp:45", [.tmpl, .tmpl, .tmpl], .commonReturnT, true⟩,
  ⟨"qlogis", "quant/qlogis.hpp:45", [.tmpl, .tmpl, .tmpl], .commonReturnT, true⟩,
  ⟨"qnorm", "quant/qnorm.hpp:45", [.tmpl, .tmpl, .tmpl], .commonReturnT, true⟩,
  ⟨"qpois", "quant/qpois.hpp:44", [.tmpl, .tmpl], .commonReturnT, true⟩,
  ⟨"qradem", "quant/qradem.hpp:44", [.tmpl, .tmpl], .commonReturnT, true⟩,
  ⟨"qt", "quant/qt.hpp:44", [.tmpl, .tmpl], .commonReturnT, true⟩,
  ⟨"qunif", "quant/qunif.hpp:45", [.tmpl, .tmpl, .tmpl], .commonReturnT, true⟩,
  ⟨"qweibull", "quant/qweibull.hpp:45", [.tmpl, .tmpl, .tmpl], .commonReturnT, true⟩,
  ⟨"rbern", "rand/rbern.hpp:47", [.tmpl], .returnT, false⟩,
  ⟨"rbeta", "rand/rbeta.hpp:48", [.tmpl, .tmpl], .commonReturnT, true⟩,
  ⟨"rbinom", "rand/rbinom.hpp:48", [.llint, .tmpl], .returnT, false⟩,
  ⟨"rcauchy", "rand/rcauchy.hpp:48", [.tmpl, .tmpl], .commonReturnT, true⟩,
  ⟨"rchisq", "rand/rchisq.hpp:47", [.tmpl], .returnT, true⟩,
  ⟨"rexp", "rand/rexp.hpp:47", [.tmpl], .returnT, true⟩,
  ⟨"rf", "rand/rf.hpp:48", [.tmpl, .tmpl], .commonReturnT, true⟩,
  ⟨"rgamma", "rand/rgamma.hpp:48", [.tmpl, .tmpl], .commonReturnT, true⟩,
  ⟨"rinvgamma", "rand/rinvgamma.hpp:48", [.tmpl, .tmpl], .commonReturnT, true⟩,
  ⟨"rinvgauss", "rand/rinvgauss.hpp:48", [.tmpl, .tmpl], .commonReturnT, true⟩,
  ⟨"rlaplace", "rand/rlaplace.hpp:48", [.tmpl, .tmpl], .commonReturnT, true⟩,
  ⟨"rlnorm", "rand/rlnorm.hpp:48", [.tmpl, .tmpl], .commonReturnT, true⟩,
  ⟨"rlogis", "rand/rlogis.hpp:48", [.tmpl, .tmpl], .commonReturnT, true⟩,
  ⟨"rnorm", "rand/rnorm.hpp:48", [.tmpl, .tmpl], .commonReturnT, true⟩,
  ⟨"rpois", "rand/rpois.hpp:47", [.tmpl], .returnT, true⟩,
  ⟨"rradem", "rand/rradem.hpp:47", [.tmpl], .returnT, false⟩,
  ⟨"rt", "rand/rt.hpp:47", [.tmpl], .returnT, true⟩,
  ⟨"runif", "rand/runif.hpp:48", [.tmpl, .tmpl], .commonReturnT, true⟩,
  ⟨"rweibull", "rand/rweibull.hpp:48", [.tmpl, .tmpl], .commonReturnT, true⟩]

/-- The number of template parameters of a signature. -/
def Sig.arity (s : Sig) : ℕ := s.params.countP (· = .tmpl)

/-- The return type of a call with the given template arguments. -/
def Sig.retTy (s : Sig) (t : Ty) (ts : List Ty) : Ty :=
  match s.ret with
  | .commonReturnT => Ty.commonReturnT t ts
  | .returnT => Ty.returnT t
  | .bare => t

/-- The types at which the body uses its template parameters. -/
def Sig.workTys (s : Sig) (t : Ty) (ts : List Ty) : List Ty :=
  if s.casts then (t :: ts).map fun _ => s.retTy t ts else t :: ts

/-! ## Conversions of values -/

/-- An argument of a scalar call: an integer, or a value of a floating type. -/
inductive Arg
  | int (n : ℤ)
  | flt (v : Fl)

section
variable [Lib]

/-- `static_cast<TC>` with `TC` the floating type of the `Lib` instance. A narrower floating value
converts exactly; an integer is rounded to `TC`. -/
noncomputable def Arg.cast : Arg → Fl
  | .int n => ofInt n
  | .flt v => v

/-- The conversion of a floating value to an integer type with range `[lo, hi]` [conv.fpint]:
truncation toward zero; undefined (`none`) if the truncated value does not fit. -/
noncomputable def toIntegral (lo hi : ℤ) : Fl → Option ℤ
  | fin r =>
      let n := if 0 ≤ r then ⌊r⌋ else ⌈r⌉
      if lo ≤ n ∧ n ≤ hi then some n else none
  | _ => none

/-- The conversion of a floating argument to `llint_t`. -/
noncomputable def toLL : Fl → Option ℤ := toIntegral (-2 ^ 63) (2 ^ 63 - 1)

/-- The conversion of an argument to an `llint_t` parameter. -/
noncomputable def Arg.toLL : Arg → Option ℤ
  | .int n => some n
  | .flt v => Stats.toLL v

/-- A call of a scalar function with two template parameters: `*_type_check` casts both, e.g.
dens/dexp.ipp:71-78 -/
noncomputable def call2 {α : Type*} (f : Fl → Fl → α) (a b : Arg) : α := f a.cast b.cast

/-- A call of a scalar function with three template parameters, e.g. dens/dnorm.ipp:79-86 -/
noncomputable def call3 {α : Type*} (f : Fl → Fl → Fl → α) (a b c : Arg) : α :=
  f a.cast b.cast c.cast

/-- A call of a scalar function with one template parameter, e.g. rand/rexp.ipp:47-50 -/
noncomputable def call1 {α : Type*} (f : Fl → α) (a : Arg) : α := f a.cast

/-- A call of a discrete density or distribution function: the point is an `llint_t` parameter and
the rest a template parameter, e.g. dens/dbern.ipp:61-66, dens/dpois.ipp:66-71. Elements of a
vector or matrix argument are converted in the same way (dens/dbern.ipp:78-83). -/
noncomputable def callZ {α : Type*} (f : ℤ → Fl → α) (x a : Arg) : Option α :=
  x.toLL.map fun n => f n a.cast

/-! ## The functions that do not cast, at an integral `T` -/

/-- What gcem's `is_inf` answers at an integral type. gcem is not part of the repository, so the
answer is left open. -/
class IntLib where
  isInf : ℤ → Bool

variable [IntLib]

/-- misc/sanity_checks/bern.hpp:31-47 at an integral `T`; `is_nan` is false -/
def bern_ok_int (prob : ℤ) : Prop := ¬ IntLib.isInf prob ∧ ¬ prob < 0 ∧ ¬ prob > 1

/-- misc/sanity_checks/radem.hpp:31-47 at an integral `T` -/
def radem_ok_int (prob : ℤ) : Prop := ¬ IntLib.isInf prob ∧ ¬ prob < 0 ∧ ¬ prob > 1

/-- misc/sanity_checks/binom.hpp:31-50 at an integral `T` -/
def binom_ok_int (n prob : ℤ) : Prop := ¬ IntLib.isInf prob ∧ ¬ n < 0 ∧ ¬ prob < 0 ∧ ¬ prob > 1

section
variable {S : Type*} [Engine S] [NextLib]

/-- rand/rbern.ipp:31-37 at an integral `T`: `STLIM<T>::quiet_NaN()` is `T(0)`, converted to double;
`runif(T(0),T(1),engine)` computes in double -/
noncomputable def rbern_int (prob : ℤ) (s : S) : Fl × S :=
  if ¬ bern_ok_int prob then (ofInt 0, s)
  else let us := runif 0 1 s; (if us.1 ≤ ofInt prob then 1 else 0, us.2)

/-- rand/rradem.ipp:31-37 at an integral `T` -/
noncomputable def rradem_int (prob : ℤ) (s : S) : Fl × S :=
  if ¬ radem_ok_int prob then (ofInt 0, s)
  else let us := runif 0 1 s; (if us.1 ≤ ofInt prob then 1 else -1, us.2)

/-- rand/rbinom.ipp:41-44 at an integral `T` -/
noncomputable def rbinom_int_loop (prob : ℤ) : ℕ → Fl → S → Fl × S
  | 0, ret, s => (ret, s)
  | n + 1, ret, s => let bs := rbern_int prob s; rbinom_int_loop prob n (ret + bs.1) bs.2

/-- rand/rbinom.ipp:31-47 at an integral `T` -/
noncomputable def rbinom_int (n prob : ℤ) (s : S) : Fl × S :=
  if ¬ binom_ok_int n prob then (ofInt 0, s) else rbinom_int_loop prob n.toNat 0 s

end

/-- prob/pbinom.ipp:34-40 at `T = int`: the double sum is converted to `int` at every return.
`none` is a conversion with undefined behaviour. -/
noncomputable def pbinom_int_compute (n prob : ℤ) : ℕ → ℤ → Option ℤ
  | 0, count => toIntegral (-2 ^ 31) (2 ^ 31 - 1) (dbinom count n (ofInt prob) false)
  | steps + 1, count =>
      (pbinom_int_compute n prob steps (count + 1)).bind fun r =>
        toIntegral (-2 ^ 31) (2 ^ 31 - 1) (dbinom count n (ofInt prob) false + ofInt r)

/-- misc/internal_fns/log_if.hpp:31-36 at `T = int`; `stmath::log` of an `int` is a double -/
noncomputable def log_if_int (x : ℤ) (log_form : Bool) : Option ℤ :=
  if log_form then toIntegral (-2 ^ 31) (2 ^ 31 - 1) (log (ofInt x)) else some x

/-- prob/pbinom.ipp:45-60, 67-71 at `T = int`. `STLIM<int>::quiet_NaN()` and
`STLIM<int>::infinity()` are `0`. -/
noncomputable def pbinom_int (x n prob : ℤ) (log_form : Bool) : Option ℤ :=
  if ¬ binom_ok_int n prob then some 0
  else if x < 0 then some (if log_form then -0 else 0)
  else if x ≥ n then log_if_int 1 log_form
  else if n = 1 then toIntegral (-2 ^ 31) (2 ^ 31 - 1) (pbern x (ofInt prob) log_form)
  else (pbinom_int_compute n prob (x - 0).toNat 0).bind fun r => log_if_int r log_form

end

end Stats

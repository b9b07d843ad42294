import Verif.Num

/-!
# Sanity checks and log/exp helpers

`/repo/include/stats_incl/misc/sanity_checks/*.hpp` and `misc/internal_fns/{log_if,exp_if}.hpp`.
Each C++ check is a chain `bad1 ? false : bad2 ? false : ... : true`; the model is the conjunction of the
negated conditions in the same order. A check with a leading `inp_val` also rejects a NaN value; it has
suffix `'` here.
-/

open Classical

namespace Stats
open Fl
variable [Lib]

/-- misc/sanity_checks/bern.hpp:31-47 -/
def bern_ok (prob : Fl) : Prop := ¬ isNan prob ∧ ¬ isInf prob ∧ ¬ prob < 0 ∧ ¬ prob > 1

/-- misc/sanity_checks/beta.hpp:31-44 -/
def beta_ok (a b : Fl) : Prop := ¬ (isNan a ∨ isNan b) ∧ ¬ a < 0 ∧ ¬ b < 0
/-- misc/sanity_checks/beta.hpp:49-53 -/
def beta_ok' (x a b : Fl) : Prop := ¬ isNan x ∧ beta_ok a b

/-- misc/sanity_checks/binom.hpp:31-50 -/
def binom_ok (n : ℤ) (prob : Fl) : Prop :=
  ¬ isNan prob ∧ ¬ isInf prob ∧ ¬ n < 0 ∧ ¬ prob < 0 ∧ ¬ prob > 1

/-- misc/sanity_checks/cauchy.hpp:31-41 -/
def cauchy_ok (mu sigma : Fl) : Prop := ¬ (isNan mu ∨ isNan sigma) ∧ ¬ sigma < 0
/-- misc/sanity_checks/cauchy.hpp:46-50 -/
def cauchy_ok' (x mu sigma : Fl) : Prop := ¬ isNan x ∧ cauchy_ok mu sigma

/-- misc/sanity_checks/chisq.hpp:31-41 -/
def chisq_ok (dof : Fl) : Prop := ¬ isNan dof ∧ ¬ dof < 0
/-- misc/sanity_checks/chisq.hpp:46-50 -/
def chisq_ok' (x dof : Fl) : Prop := ¬ isNan x ∧ chisq_ok dof

/-- misc/sanity_checks/exp.hpp:31-41 -/
def exp_ok (rate : Fl) : Prop := ¬ isNan rate ∧ ¬ rate < 0
/-- misc/sanity_checks/exp.hpp:46-50 -/
def exp_ok' (x rate : Fl) : Prop := ¬ isNan x ∧ exp_ok rate

/-- misc/sanity_checks/f.hpp:31-44 -/
def f_ok (df1 df2 : Fl) : Prop := ¬ (isNan df1 ∨ isNan df2) ∧ ¬ eps > df1 ∧ ¬ eps > df2
/-- misc/sanity_checks/f.hpp:49-53 -/
def f_ok' (x df1 df2 : Fl) : Prop := ¬ isNan x ∧ f_ok df1 df2

/-- misc/sanity_checks/gamma.hpp:31-44 -/
def gamma_ok (shape scale : Fl) : Prop :=
  ¬ (isNan shape ∨ isNan scale) ∧ ¬ shape < 0 ∧ ¬ eps > scale
/-- misc/sanity_checks/gamma.hpp:49-53 -/
def gamma_ok' (x shape scale : Fl) : Prop := ¬ isNan x ∧ gamma_ok shape scale

/-- misc/sanity_checks/invgamma.hpp:31-44 -/
def invgamma_ok (shape rate : Fl) : Prop :=
  ¬ (isNan shape ∨ isNan rate) ∧ ¬ shape < 0 ∧ ¬ rate < 0
/-- misc/sanity_checks/invgamma.hpp:49-53 -/
def invgamma_ok' (x shape rate : Fl) : Prop := ¬ isNan x ∧ invgamma_ok shape rate

/-- misc/sanity_checks/invgauss.hpp:31-44 -/
def invgauss_ok (mu lambda : Fl) : Prop :=
  ¬ (isNan mu ∨ isNan lambda) ∧ ¬ mu < 0 ∧ ¬ lambda < 0
/-- misc/sanity_checks/invgauss.hpp:49-53 -/
def invgauss_ok' (x mu lambda : Fl) : Prop := ¬ isNan x ∧ invgauss_ok mu lambda

/-- misc/sanity_checks/laplace.hpp:31-41 -/
def laplace_ok (mu sigma : Fl) : Prop := ¬ (isNan mu ∨ isNan sigma) ∧ ¬ sigma < 0
/-- misc/sanity_checks/laplace.hpp:46-50 -/
def laplace_ok' (x mu sigma : Fl) : Prop := ¬ isNan x ∧ laplace_ok mu sigma

/-- misc/sanity_checks/lnorm.hpp:31-41 -/
def lnorm_ok (mu sigma : Fl) : Prop := ¬ (isNan mu ∨ isNan sigma) ∧ ¬ sigma < 0
/-- misc/sanity_checks/lnorm.hpp:46-50 -/
def lnorm_ok' (x mu sigma : Fl) : Prop := ¬ isNan x ∧ lnorm_ok mu sigma

/-- misc/sanity_checks/logis.hpp:31-41 -/
def logis_ok (mu sigma : Fl) : Prop := ¬ (isNan mu ∨ isNan sigma) ∧ ¬ sigma < 0
/-- misc/sanity_checks/logis.hpp:46-50 -/
def logis_ok' (x mu sigma : Fl) : Prop := ¬ isNan x ∧ logis_ok mu sigma

/-- misc/sanity_checks/norm.hpp:31-41 -/
def norm_ok (mu sigma : Fl) : Prop := ¬ (isNan mu ∨ isNan sigma) ∧ ¬ sigma < 0
/-- misc/sanity_checks/norm.hpp:46-50 -/
def norm_ok' (x mu sigma : Fl) : Prop := ¬ isNan x ∧ norm_ok mu sigma

/-- misc/sanity_checks/pois.hpp:31-41 -/
def pois_ok (rate : Fl) : Prop := ¬ isNan rate ∧ ¬ rate < 0

/-- misc/sanity_checks/prob_val.hpp:31-44 -/
def prob_val_ok (p : Fl) : Prop := ¬ isNan p ∧ ¬ p < 0 ∧ ¬ p > 1

/-- misc/sanity_checks/radem.hpp:31-47 -/
def radem_ok (prob : Fl) : Prop := ¬ isNan prob ∧ ¬ isInf prob ∧ ¬ prob < 0 ∧ ¬ prob > 1

/-- misc/sanity_checks/t.hpp:31-41 -/
def t_ok (dof : Fl) : Prop := ¬ isNan dof ∧ ¬ eps > dof
/-- misc/sanity_checks/t.hpp:46-50 -/
def t_ok' (x dof : Fl) : Prop := ¬ isNan x ∧ t_ok dof

/-- misc/sanity_checks/unif.hpp:31-41 -/
def unif_ok (a b : Fl) : Prop := ¬ (isNan a ∨ isNan b) ∧ ¬ a ≥ b
/-- misc/sanity_checks/unif.hpp:46-50 -/
def unif_ok' (x a b : Fl) : Prop := ¬ isNan x ∧ unif_ok a b

/-- misc/sanity_checks/weibull.hpp:31-44 -/
def weibull_ok (shape scale : Fl) : Prop :=
  ¬ (isNan shape ∨ isNan scale) ∧ ¬ shape < eps ∧ ¬ scale < eps
/-- misc/sanity_checks/weibull.hpp:49-53 -/
def weibull_ok' (x shape scale : Fl) : Prop := ¬ isNan x ∧ weibull_ok shape scale

/-- misc/internal_fns/log_if.hpp:31-38 -/
noncomputable def log_if (x : Fl) (log_form : Bool) : Fl := if log_form then log x else x
/-- misc/internal_fns/log_if.hpp:40-47 -/
noncomputable def log_zero_if (log_form : Bool) : Fl := if log_form then -pinf else 0
/-- misc/internal_fns/log_if.hpp:49-56 -/
noncomputable def log_one_if (log_form : Bool) : Fl := if log_form then 0 else 1
/-- misc/internal_fns/exp_if.hpp:31-38 -/
noncomputable def exp_if (x : Fl) (exp_form : Bool) : Fl := if exp_form then exp x else x

end Stats

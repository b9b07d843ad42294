import Verif.Model.Sanity

/-!
# Density functions

`/repo/include/stats_incl/dens/*.ipp`, scalar code (`d*_compute`, `d*_limit_vals`, `d*_vals_check`).
The `*_type_check` layer only casts to the common floating type and is modelled in `Verif/Model/Types.lean`.
Mixed literals such as `0.5*dof_par` or `2*sigma_par` are taken in the type `T`.
-/

open Classical

namespace Stats
open Fl
variable [Lib]

/-! ## dens/dnorm.ipp -/

/-- dens/dnorm.ipp:34-38 -/
noncomputable def dnorm_log_compute (z sigma : Fl) : Fl :=
  -half * LOG2PI - log sigma - z * z / 2

/-- dens/dnorm.ipp:43-62 -/
noncomputable def dnorm_limit_vals (x mu sigma : Fl) : Fl :=
  if isPosinf sigma then 0
  else if (isPosinf x ∧ isPosinf mu) ∨ (isNeginf x ∧ isNeginf mu) then nan
  else if sigma ==. 0 ∧ x ==. mu then pinf
  else 0

/-- dens/dnorm.ipp:67-77, 94-98 -/
noncomputable def dnorm (x mu sigma : Fl) (log_form : Bool) : Fl :=
  if ¬ norm_ok' x mu sigma then nan
  else if (isInf x ∨ isInf mu ∨ isInf sigma) ∨ sigma ==. 0 then
    log_if (dnorm_limit_vals x mu sigma) log_form
  else exp_if (dnorm_log_compute ((x - mu) / sigma) sigma) (!log_form)

/-! ## dens/dlnorm.ipp -/

/-- dens/dlnorm.ipp:34-40 -/
noncomputable def dlnorm_log_check (x mu sigma : Fl) (log_form : Bool) : Fl :=
  if log_form then dnorm (log x) mu sigma true - log x
  else dnorm (log x) mu sigma false / x

/-- dens/dlnorm.ipp:45-61 -/
noncomputable def dlnorm_limit_vals (log_x mu sigma : Fl) : Fl :=
  if isPosinf sigma then 0
  else if sigma ==. 0 then
    if (isPosinf log_x ∧ isPosinf mu) ∨ (isNeginf log_x ∧ isNeginf mu) then pinf else 0
  else if isPosinf log_x ∧ isPosinf mu then nan
  else 0

/-- dens/dlnorm.ipp:66-79 -/
noncomputable def dlnorm (x mu sigma : Fl) (log_form : Bool) : Fl :=
  if ¬ lnorm_ok' x mu sigma then nan
  else if x < 0 then log_zero_if log_form
  else if (isInf (log x) ∨ isInf mu ∨ isInf sigma) ∨ sigma ==. 0 then
    log_if (dlnorm_limit_vals (log x) mu sigma) log_form
  else dlnorm_log_check x mu sigma log_form

/-! ## dens/dunif.ipp -/

/-- dens/dunif.ipp:34-40 -/
noncomputable def dunif_log_check (a b : Fl) (log_form : Bool) : Fl :=
  if log_form then -log (b - a) else 1 / (b - a)

/-- dens/dunif.ipp:45-59 -/
noncomputable def dunif (x a b : Fl) (log_form : Bool) : Fl :=
  if ¬ unif_ok' x a b then nan
  else if isInf a ∨ isInf b then 0
  else if x < a ∨ x > b then log_zero_if log_form
  else dunif_log_check a b log_form

/-! ## dens/dexp.ipp -/

/-- dens/dexp.ipp:34-38 -/
noncomputable def dexp_log_compute (x rate : Fl) : Fl := log rate - rate * x

/-- dens/dexp.ipp:43-60 -/
noncomputable def dexp (x rate : Fl) (log_form : Bool) : Fl :=
  if ¬ exp_ok' x rate then nan
  else if isPosinf rate then nan
  else if x < 0 then log_zero_if log_form
  else if isPosinf x then (if rate > 0 then 0 else nan)
  else exp_if (dexp_log_compute x rate) (!log_form)

/-! ## dens/dcauchy.ipp -/

/-- dens/dcauchy.ipp:34-38 -/
noncomputable def dcauchy_compute (z sigma : Fl) : Fl := 1 / (sigma * PI * (1 + z * z))

/-- dens/dcauchy.ipp:43-61 -/
noncomputable def dcauchy_limit_vals (x mu sigma : Fl) : Fl :=
  if isPosinf sigma then (if isInf x ∨ isInf mu then nan else 0)
  else if (isPosinf x ∧ isPosinf mu) ∨ (isNeginf x ∧ isNeginf mu) then nan
  else if isPosinf x ∧ isNeginf mu then 0
  else if isNeginf x ∧ isPosinf mu then 0
  else 0

/-- dens/dcauchy.ipp:66-76 -/
noncomputable def dcauchy (x mu sigma : Fl) (log_form : Bool) : Fl :=
  if ¬ cauchy_ok' x mu sigma then nan
  else if isInf x ∨ isInf mu ∨ isInf sigma then log_if (dcauchy_limit_vals x mu sigma) log_form
  else log_if (dcauchy_compute ((x - mu) / sigma) sigma) log_form

/-! ## dens/dlaplace.ipp -/

/-- dens/dlaplace.ipp:34-38 -/
noncomputable def dlaplace_log_compute (x mu sigma : Fl) : Fl :=
  -log (2 * sigma) - abs (x - mu) / sigma

/-- dens/dlaplace.ipp:43-62 -/
noncomputable def dlaplace_limit_vals (x mu sigma : Fl) : Fl :=
  if isPosinf sigma then 0
  else if (isPosinf x ∧ isPosinf mu) ∨ (isNeginf x ∧ isNeginf mu) then nan
  else if sigma ==. 0 ∧ x ==. mu then pinf
  else 0

/-- dens/dlaplace.ipp:67-77 -/
noncomputable def dlaplace (x mu sigma : Fl) (log_form : Bool) : Fl :=
  if ¬ laplace_ok' x mu sigma then nan
  else if (isInf x ∨ isInf mu ∨ isInf sigma) ∨ sigma ==. 0 then
    log_if (dlaplace_limit_vals x mu sigma) log_form
  else exp_if (dlaplace_log_compute x mu sigma) (!log_form)

/-! ## dens/dlogis.ipp -/

/-- dens/dlogis.ipp:34-38 -/
noncomputable def dlogis_log_compute (z sigma : Fl) : Fl :=
  -z - log sigma - 2 * log (1 + exp (-z))

/-- dens/dlogis.ipp:43-57 -/
noncomputable def dlogis_limit_vals (x mu sigma : Fl) : Fl :=
  if isPosinf sigma then 0
  else if (isPosinf x ∧ isPosinf mu) ∨ (isNeginf x ∧ isNeginf mu) then nan
  else if sigma ==. 0 ∧ x ==. mu then pinf
  else 0

/-- dens/dlogis.ipp:62-72 -/
noncomputable def dlogis (x mu sigma : Fl) (log_form : Bool) : Fl :=
  if ¬ logis_ok' x mu sigma then nan
  else if isInf x ∨ isInf mu ∨ isInf sigma then log_if (dlogis_limit_vals x mu sigma) log_form
  else exp_if (dlogis_log_compute ((x - mu) / sigma) sigma) (!log_form)

/-! ## dens/dbeta.ipp -/

/-- dens/dbeta.ipp:34-39 -/
noncomputable def dbeta_log_compute (x a b : Fl) : Fl :=
  -(lgamma a + lgamma b - lgamma (a + b)) + (a - 1) * log x + (b - 1) * log (1 - x)

/-- dens/dbeta.ipp:44-65 -/
noncomputable def dbeta_limit_vals (x a b : Fl) : Fl :=
  if a ==. 0 ∧ b ==. 0 then (if x ==. 0 ∨ x ==. 1 then pinf else 0)
  else if a ==. 0 ∨ (isPosinf b ∧ ¬ isPosinf a) then (if x ==. 0 then pinf else 0)
  else if b ==. 0 ∨ (isPosinf a ∧ ¬ isPosinf b) then (if x ==. 1 then pinf else 0)
  else if x ==. half then pinf else 0

/-- dens/dbeta.ipp:70-96 -/
noncomputable def dbeta (x a b : Fl) (log_form : Bool) : Fl :=
  if ¬ beta_ok' x a b then nan
  else if x < 0 ∨ x > 1 then log_zero_if log_form
  else if a ==. 0 ∨ b ==. 0 ∨ (isPosinf a ∨ isPosinf b) then
    log_if (dbeta_limit_vals x a b) log_form
  else if x ==. 0 then
    if a < 1 then pinf else if a > 1 then log_zero_if log_form else log_if b log_form
  else if x ==. 1 then
    if b < 1 then pinf else if b > 1 then log_zero_if log_form else log_if a log_form
  else exp_if (dbeta_log_compute x a b) (!log_form)

/-! ## dens/dgamma.ipp -/

/-- dens/dgamma.ipp:34-39 -/
noncomputable def dgamma_log_compute (x shape scale : Fl) : Fl :=
  -lgamma shape - shape * log scale + (shape - 1) * log x - x / scale

/-- dens/dgamma.ipp:44-58 -/
noncomputable def dgamma_limit_vals (x shape scale : Fl) : Fl :=
  if shape ==. 0 then (if x ==. 0 then pinf else 0)
  else if shape < 1 then pinf
  else if shape ==. 1 then 1 / scale
  else 0

/-- dens/dgamma.ipp:63-79 -/
noncomputable def dgamma (x shape scale : Fl) (log_form : Bool) : Fl :=
  if ¬ gamma_ok' x shape scale then nan
  else if x < 0 then log_zero_if log_form
  else if x ==. 0 ∨ shape ==. 0 then log_if (dgamma_limit_vals x shape scale) log_form
  else if isPosinf x ∨ isPosinf shape ∨ isPosinf scale then log_zero_if log_form
  else exp_if (dgamma_log_compute x shape scale) (!log_form)

/-! ## dens/dinvgamma.ipp -/

/-- dens/dinvgamma.ipp:34-39 -/
noncomputable def dinvgamma_log_compute (x shape rate : Fl) : Fl :=
  -lgamma shape + shape * log rate + (-shape - 1) * log x - rate / x

/-- dens/dinvgamma.ipp:44-55 -/
noncomputable def dinvgamma_limit_vals (x shape rate : Fl) : Fl :=
  if shape ==. 0 then (if x > 0 then pinf else 0)
  else if rate ==. 0 then pinf
  else 0

/-- dens/dinvgamma.ipp:60-79 -/
noncomputable def dinvgamma (x shape rate : Fl) (log_form : Bool) : Fl :=
  if ¬ invgamma_ok' x shape rate then nan
  else if x < 0 then log_zero_if log_form
  else if x ==. 0 ∨ shape ==. 0 then log_if (dinvgamma_limit_vals x shape rate) log_form
  else if rate ==. 0 then log_zero_if log_form
  else if isPosinf x ∨ isPosinf shape ∨ isPosinf rate then log_zero_if log_form
  else exp_if (dinvgamma_log_compute x shape rate) (!log_form)

/-! ## dens/dinvgauss.ipp -/

/-- dens/dinvgauss.ipp:34-38 -/
noncomputable def dinvgauss_log_compute_term_1 (x lambda : Fl) : Fl :=
  -half * (LOG2PI + 3 * log x - log lambda)

/-- dens/dinvgauss.ipp:43-47 -/
noncomputable def dinvgauss_log_compute_term_2 (x xc mu lambda : Fl) : Fl :=
  -lambda * (xc * xc) / (2 * mu * mu * x)

/-- dens/dinvgauss.ipp:52-56 -/
noncomputable def dinvgauss_log_compute (x mu lambda : Fl) : Fl :=
  dinvgauss_log_compute_term_1 x lambda + dinvgauss_log_compute_term_2 x (x - mu) mu lambda

/-- dens/dinvgauss.ipp:61-80 -/
noncomputable def dinvgauss_limit_vals (x mu lambda : Fl) : Fl :=
  if x ==. 0 ∧ (mu ==. 0 ∨ lambda ==. 0) then pinf
  else if x ==. 0 then 0
  else if lambda ==. 0 then 0
  else if isPosinf x then 0
  else if isPosinf lambda ∧ x ==. mu then pinf
  else 0

/-- dens/dinvgauss.ipp:85-100 -/
noncomputable def dinvgauss (x mu lambda : Fl) (log_form : Bool) : Fl :=
  if ¬ invgauss_ok' x mu lambda then nan
  else if x < 0 then log_zero_if log_form
  else if (isInf x ∨ isInf mu ∨ isInf lambda) ∨ x ==. 0 ∨ lambda ==. 0 then
    log_if (dinvgauss_limit_vals x mu lambda) log_form
  else exp_if (dinvgauss_log_compute x mu lambda) (!log_form)

/-! ## dens/dchisq.ipp -/

/-- dens/dchisq.ipp:34-39 -/
noncomputable def dchisq_compute (x dof : Fl) : Fl :=
  -lgamma (half * dof) - half * dof * LOG2 + (half * dof - 1) * log x - x / 2

/-- dens/dchisq.ipp:44-53 -/
noncomputable def dchisq_limit_vals (dof : Fl) : Fl :=
  if dof < 2 then pinf else if dof ==. 2 then half else 0

/-- dens/dchisq.ipp:58-74 -/
noncomputable def dchisq (x dof : Fl) (log_form : Bool) : Fl :=
  if ¬ chisq_ok' x dof then nan
  else if x < 0 then log_zero_if log_form
  else if x ==. 0 then log_if (dchisq_limit_vals dof) log_form
  else if isPosinf x ∨ isPosinf dof then log_zero_if log_form
  else exp_if (dchisq_compute x dof) (!log_form)

/-! ## dens/df.ipp -/

/-- dens/df.ipp:34-38 -/
noncomputable def df_compute_adj (x ratio_abx : Fl) : Fl := ratio_abx * (1 - x * ratio_abx)

/-- dens/df.ipp:43-53 -/
noncomputable def df_log_check (x a b abx : Fl) (log_form : Bool) : Fl :=
  if log_form then
    dbeta (abx / (1 + abx)) a b true + log (df_compute_adj x ((a / b) / (1 + abx)))
  else
    dbeta (abx / (1 + abx)) a b false * df_compute_adj x ((a / b) / (1 + abx))

/-- dens/df.ipp:58-74 -/
noncomputable def df_limit_vals_dof (x df1 df2 : Fl) (log_form : Bool) : Fl :=
  if isPosinf df1 ∧ isPosinf df2 then (if x ==. 1 then pinf else log_zero_if log_form)
  else if isPosinf df1 then dinvgamma x (df2 / 2) (df2 / 2) log_form
  else dgamma x (df1 / 2) (2 / df1) log_form

/-- dens/df.ipp:79-95 -/
noncomputable def df_limit_vals_xinf (df1 df2 : Fl) : Fl :=
  if isPosinf df1 then (if df2 < 2 then nan else 0)
  else if isPosinf df2 then (if df1 > 0 then 0 else nan)
  else if df1 ≥ 2 ∧ df2 ≥ 1 then 0 else nan

/-- dens/df.ipp:100-109 -/
noncomputable def df_limit_vals_x0 (df1 : Fl) : Fl :=
  if df1 < 2 then pinf else if df1 ==. 2 then 1 else 0

/-- dens/df.ipp:114-131 -/
noncomputable def df (x df1 df2 : Fl) (log_form : Bool) : Fl :=
  if ¬ f_ok' x df1 df2 then nan
  else if x < 0 then log_zero_if log_form
  else if x ==. 0 then log_if (df_limit_vals_x0 df1) log_form
  else if isPosinf x then log_if (df_limit_vals_xinf df1 df2) log_form
  else if isPosinf df1 ∨ isPosinf df2 then df_limit_vals_dof x df1 df2 log_form
  else df_log_check x (df1 / 2) (df2 / 2) (df1 * x / df2) log_form

/-! ## dens/dt.ipp -/

/-- dens/dt.ipp:34-38 -/
noncomputable def dt_log_mult_term (z dof : Fl) : Fl :=
  -(dof / 2 + half) * log (1 + (z / dof) * z)

/-- dens/dt.ipp:43-49 -/
noncomputable def dt_log_cons_term (dof : Fl) : Fl :=
  lgamma (dof / 2 + half) - half * (log dof + LOGPI) - lgamma (dof / 2)

/-- dens/dt.ipp:54-58 -/
noncomputable def dt_log_compute (z dof : Fl) : Fl := dt_log_cons_term dof + dt_log_mult_term z dof

/-- dens/dt.ipp:63-76 -/
noncomputable def dt (x dof : Fl) (log_form : Bool) : Fl :=
  if ¬ t_ok' x dof then nan
  else if isInf x then log_zero_if log_form
  else if isPosinf dof then dnorm x 0 1 log_form
  else exp_if (dt_log_compute x dof) (!log_form)

/-! ## dens/dweibull.ipp -/

/-- dens/dweibull.ipp:34-38 -/
noncomputable def dweibull_log_compute (x shape scale : Fl) : Fl :=
  log (shape / scale) + (shape - 1) * log x - pow x shape

/-- dens/dweibull.ipp:43-59 -/
noncomputable def dweibull (x shape scale : Fl) (log_form : Bool) : Fl :=
  if ¬ weibull_ok' x shape scale then nan
  else if x < 0 then log_zero_if log_form
  else if x ==. 0 ∧ shape < 1 then pinf
  else if isPosinf x then log_zero_if log_form
  else exp_if (dweibull_log_compute (x / scale) shape scale) (!log_form)

/-! ## Discrete: dens/{dbern,dradem,dbinom,dpois}.ipp -/

/-- dens/dbern.ipp:34-43 -/
noncomputable def dbern_compute (x : ℤ) (prob : Fl) : Fl :=
  if x = 1 then prob else if x = 0 then 1 - prob else 0

/-- dens/dbern.ipp:48-55 -/
noncomputable def dbern (x : ℤ) (prob : Fl) (log_form : Bool) : Fl :=
  if ¬ bern_ok prob then nan else log_if (dbern_compute x prob) log_form

/-- dens/dradem.ipp:34-43 -/
noncomputable def dradem_compute (x : ℤ) (prob : Fl) : Fl :=
  if x = 1 then prob else if x = -1 then 1 - prob else 0

/-- dens/dradem.ipp:48-55 -/
noncomputable def dradem (x : ℤ) (prob : Fl) (log_form : Bool) : Fl :=
  if ¬ radem_ok prob then nan else log_if (dradem_compute x prob) log_form

/-- dens/dbinom.ipp:34-45 -/
noncomputable def dbinom_log_compute (x n : ℤ) (prob : Fl) : Fl :=
  if x = 0 then ofInt n * log (1 - prob)
  else if x = n then ofInt x * log prob
  else lbinom n x + ofInt x * log prob + ofInt (n - x) * log (1 - prob)

/-- dens/dbinom.ipp:50-56 -/
noncomputable def dbinom_limit_vals (x : ℤ) : Fl := if x = 0 then 1 else 0

/-- dens/dbinom.ipp:61-80 (the `is_nan` test of an integer is always false) -/
noncomputable def dbinom (x n : ℤ) (prob : Fl) (log_form : Bool) : Fl :=
  if ¬ binom_ok n prob then nan
  else if x < 0 ∨ x > n then log_zero_if log_form
  else if n = 0 then log_if (dbinom_limit_vals x) log_form
  else if n = 1 then dbern x prob log_form
  else exp_if (dbinom_log_compute x n prob) (!log_form)

/-- dens/dpois.ipp:34-38 -/
noncomputable def dpois_log_compute (x : ℤ) (rate : Fl) : Fl :=
  ofInt x * log rate - rate - lgamma (ofInt (x + 1))

/-- dens/dpois.ipp:43-61 -/
noncomputable def dpois (x : ℤ) (rate : Fl) (log_form : Bool) : Fl :=
  if ¬ pois_ok rate then nan
  else if x < 0 then log_zero_if log_form
  else if rate ==. 0 then (if x = 0 then log_one_if log_form else log_zero_if log_form)
  else if isPosinf rate then log_zero_if log_form
  else exp_if (dpois_log_compute x rate) (!log_form)

end Stats

import Verif.Model.Dens
import Mathlib.Data.Nat.Factorial.Basic

/-!
# Distribution functions

`/repo/include/stats_incl/prob/*.ipp`, scalar code.
-/

open Classical

namespace Stats
open Fl
variable [Lib]

/-! ## prob/pnorm.ipp -/

/-- prob/pnorm.ipp:34-37 -/
noncomputable def pnorm_compute (z : Fl) : Fl := half * (1 + erf (z / SQRT2))

/-- prob/pnorm.ipp:42-69 -/
noncomputable def pnorm_limit_vals (x mu sigma : Fl) : Fl :=
  if (isPosinf x ∧ isPosinf mu) ∨ (isNeginf x ∧ isNeginf mu) then nan
  else if isPosinf sigma then
    if isPosinf x ∨ isNeginf mu then 1
    else if isNeginf x ∨ isPosinf mu then 0
    else half
  else if sigma ==. 0 then (if x ≥ mu then 1 else 0)
  else if isPosinf x ∨ isNeginf mu then 1
  else if isNeginf x ∨ isPosinf mu then 0
  else 0

/-- prob/pnorm.ipp:74-83, 97-104 -/
noncomputable def pnorm (x mu sigma : Fl) (log_form : Bool) : Fl :=
  if ¬ norm_ok' x mu sigma then nan
  else if (isInf x ∨ isInf mu ∨ isInf sigma) ∨ sigma ==. 0 then
    log_if (pnorm_limit_vals x mu sigma) log_form
  else log_if (pnorm_compute ((x - mu) / sigma)) log_form

/-- One-argument overload, prob/pnorm.ipp:106-113 -/
noncomputable def pnorm1 (x : Fl) (log_form : Bool) : Fl := pnorm x 0 1 log_form

/-- One-argument overload of the *density*, dens/dnorm.ipp:100-107; it calls `pnorm`. -/
noncomputable def dnorm1 (x : Fl) (log_form : Bool) : Fl := pnorm x 0 1 log_form

/-- One-argument overload, dens/dunif.ipp:82-89 -/
noncomputable def dunif1 (x : Fl) : Fl := dunif x 0 1 false

/-! ## prob/plnorm.ipp -/

/-- prob/plnorm.ipp:34-43 -/
noncomputable def plnorm (x mu sigma : Fl) (log_form : Bool) : Fl :=
  if ¬ lnorm_ok' x mu sigma then nan
  else if eps > x then log_zero_if log_form
  else pnorm (log x) mu sigma log_form

/-! ## prob/punif.ipp -/

/-- prob/punif.ipp:34-42 -/
noncomputable def punif_compute (x a b : Fl) : Fl :=
  if x ≤ a then 0 else if x ≥ b then 1 else (x - a) / (b - a)

/-- prob/punif.ipp:47-56 -/
noncomputable def punif (x a b : Fl) (log_form : Bool) : Fl :=
  if ¬ unif_ok' x a b then nan
  else if isInf a ∧ isInf b then nan
  else log_if (punif_compute x a b) log_form

/-! ## prob/pexp.ipp -/

/-- prob/pexp.ipp:34-43 -/
noncomputable def pexp_compute (x rate : Fl) : Fl :=
  if x ≤ 0 then 0
  else if isPosinf rate then 1
  else -expm1 (-rate * x)

/-- prob/pexp.ipp:48-55 -/
noncomputable def pexp (x rate : Fl) (log_form : Bool) : Fl :=
  if ¬ exp_ok' x rate then nan else log_if (pexp_compute x rate) log_form

/-! ## prob/pcauchy.ipp -/

/-- prob/pcauchy.ipp:34-38 -/
noncomputable def pcauchy_compute (z : Fl) : Fl := half + atan z / PI

/-- prob/pcauchy.ipp:43-63 -/
noncomputable def pcauchy_limit_vals (x mu sigma : Fl) : Fl :=
  if isPosinf sigma then (if isInf x ∨ isInf mu then nan else half)
  else if (isPosinf x ∧ isPosinf mu) ∨ (isNeginf x ∧ isNeginf mu) then nan
  else if isPosinf x ∧ isNeginf mu then 1
  else if isNeginf x ∧ isPosinf mu then 0
  else if isNeginf x ∨ isPosinf mu then 0
  else 1

/-- prob/pcauchy.ipp:68-78 -/
noncomputable def pcauchy (x mu sigma : Fl) (log_form : Bool) : Fl :=
  if ¬ cauchy_ok' x mu sigma then nan
  else if isInf x ∨ isInf mu ∨ isInf sigma then log_if (pcauchy_limit_vals x mu sigma) log_form
  else log_if (pcauchy_compute ((x - mu) / sigma)) log_form

/-! ## prob/plaplace.ipp -/

/-- prob/plaplace.ipp:34-37 -/
noncomputable def plaplace_compute (z sigma : Fl) : Fl :=
  half + half * sgn z * (1 - exp (-abs z / sigma))

/-- prob/plaplace.ipp:42-65 -/
noncomputable def plaplace_limit_vals (x mu sigma : Fl) : Fl :=
  if (isPosinf x ∧ isPosinf mu) ∨ (isNeginf x ∧ isNeginf mu) then nan
  else if isPosinf sigma then (if isInf x ∨ isInf mu then nan else half)
  else if sigma ==. 0 then half + half * sgn (x - mu)
  else if isPosinf x ∨ isNeginf mu then 1
  else if isNeginf x ∨ isPosinf mu then 0
  else 0

/-- prob/plaplace.ipp:70-80 -/
noncomputable def plaplace (x mu sigma : Fl) (log_form : Bool) : Fl :=
  if ¬ laplace_ok' x mu sigma then nan
  else if (isInf x ∨ isInf mu ∨ isInf sigma) ∨ sigma ==. 0 then
    log_if (plaplace_limit_vals x mu sigma) log_form
  else log_if (plaplace_compute (x - mu) sigma) log_form

/-! ## prob/plogis.ipp -/

/-- prob/plogis.ipp:34-37 -/
noncomputable def plogis_compute (z : Fl) : Fl := half * (1 + tanh z)

/-- prob/plogis.ipp:42-65 -/
noncomputable def plogis_limit_vals (x mu sigma : Fl) : Fl :=
  if (isPosinf x ∧ isPosinf mu) ∨ (isNeginf x ∧ isNeginf mu) then nan
  else if isPosinf sigma then (if isInf x ∨ isInf mu then nan else half)
  else if isPosinf x ∨ isNeginf mu then 1
  else if isNeginf x ∨ isPosinf mu then 0
  else if sigma ==. 0 then half + half * sgn (x - mu)
  else 0

/-- prob/plogis.ipp:70-79 -/
noncomputable def plogis (x mu sigma : Fl) (log_form : Bool) : Fl :=
  if ¬ logis_ok' x mu sigma then nan
  else if (isInf x ∨ isInf mu ∨ isInf sigma) ∨ sigma ==. 0 then
    log_if (plogis_limit_vals x mu sigma) log_form
  else log_if (plogis_compute ((x - mu) / (2 * sigma))) log_form

/-! ## prob/pbeta.ipp -/

/-- prob/pbeta.ipp:34-38 -/
noncomputable def pbeta_compute (x a b : Fl) : Fl := ibeta a b x

/-- prob/pbeta.ipp:43-58 -/
noncomputable def pbeta_limit_vals (x a b : Fl) : Fl :=
  if a ==. 0 ∧ b ==. 0 then half
  else if a ==. 0 ∨ (isPosinf b ∧ ¬ isPosinf a) then 1
  else if b ==. 0 ∨ (isPosinf a ∧ ¬ isPosinf b) then 0
  else if x < half then 0 else 1

/-- prob/pbeta.ipp:63-78 -/
noncomputable def pbeta (x a b : Fl) (log_form : Bool) : Fl :=
  if ¬ beta_ok' x a b then nan
  else if x ≤ 0 then log_zero_if log_form
  else if x ≥ 1 then log_if 1 log_form
  else if a ==. 0 ∨ b ==. 0 ∨ (isPosinf a ∨ isPosinf b) then
    log_if (pbeta_limit_vals x a b) log_form
  else log_if (pbeta_compute x a b) log_form

/-! ## prob/pgamma.ipp -/

/-- prob/pgamma.ipp:34-38 -/
noncomputable def pgamma_compute (x shape scale : Fl) : Fl := igamma shape (x / scale)

/-- prob/pgamma.ipp:43-59 -/
noncomputable def pgamma_limit_vals (x shape scale : Fl) : Fl :=
  if shape ==. 0 then (if isPosinf scale then 0 else 1)
  else if isPosinf x ∧ (isFinite shape ∧ isFinite scale) then 1
  else if isPosinf x ∧ isPosinf shape then 1
  else 0

/-- prob/pgamma.ipp:64-80 -/
noncomputable def pgamma (x shape scale : Fl) (log_form : Bool) : Fl :=
  if ¬ gamma_ok' x shape scale then nan
  else if isPosinf x ∧ isPosinf scale then nan
  else if eps > x then log_zero_if log_form
  else if (isPosinf x ∨ isPosinf shape ∨ isPosinf scale) ∨ shape ==. 0 then
    log_if (pgamma_limit_vals x shape scale) log_form
  else log_if (pgamma_compute x shape scale) log_form

/-! ## prob/pinvgamma.ipp -/

/-- prob/pinvgamma.ipp:34-38 -/
noncomputable def pinvgamma_compute (recip_inp shape recip_par : Fl) (log_form : Bool) : Fl :=
  log_if (1 - pgamma recip_inp shape recip_par false) log_form

/-- prob/pinvgamma.ipp:43-53 -/
noncomputable def pinvgamma_limit_vals (recip_inp shape rate : Fl) (log_form : Bool) : Fl :=
  if rate ==. 0 then pinvgamma_compute recip_inp shape pinf log_form
  else if isPosinf rate then pinvgamma_compute recip_inp shape 0 log_form
  else pinvgamma_compute recip_inp shape (1 / rate) log_form

/-- prob/pinvgamma.ipp:58-69 -/
noncomputable def pinvgamma (x shape rate : Fl) (log_form : Bool) : Fl :=
  if ¬ invgamma_ok' x shape rate then nan
  else if x < 0 then log_zero_if log_form
  else pinvgamma_limit_vals (if x ==. 0 then pinf else if isPosinf x then 0 else 1 / x)
    shape rate log_form

/-! ## prob/pchisq.ipp -/

/-- prob/pchisq.ipp:34-38 -/
noncomputable def pchisq_compute (x dof : Fl) : Fl := igamma (dof / 2) (x / 2)

/-- prob/pchisq.ipp:43-61 -/
noncomputable def pchisq (x dof : Fl) (log_form : Bool) : Fl :=
  if ¬ chisq_ok' x dof then nan
  else if eps > x then log_zero_if log_form
  else if dof ==. 0 then log_one_if log_form
  else if isPosinf x then log_one_if log_form
  else if isPosinf dof then log_zero_if log_form
  else log_if (pchisq_compute x dof) log_form

/-! ## prob/pf.ipp -/

/-- prob/pf.ipp:34-37 -/
noncomputable def pf_compute (x a b : Fl) : Fl := ibeta a b (x / (1 + x))

/-- prob/pf.ipp:42-57 -/
noncomputable def pf_limit_vals_dof (x df1 df2 : Fl) (log_form : Bool) : Fl :=
  if isPosinf df1 ∧ isPosinf df2 then
    if x > 1 then log_one_if log_form
    else if x ==. 1 then log_if half log_form
    else log_zero_if log_form
  else if isPosinf df1 then 1 - pchisq (df2 / x) df2 log_form
  else pchisq (x * df1) df1 log_form

/-- prob/pf.ipp:62-76 -/
noncomputable def pf (x df1 df2 : Fl) (log_form : Bool) : Fl :=
  if ¬ f_ok' x df1 df2 then nan
  else if eps > x then log_zero_if log_form
  else if isPosinf x then log_one_if log_form
  else if isPosinf df1 ∨ isPosinf df2 then pf_limit_vals_dof x df1 df2 log_form
  else log_if (pf_compute (df1 * x / df2) (df1 / 2) (df2 / 2)) log_form

/-! ## prob/pt.ipp -/

/-- prob/pt.ipp:34-37 -/
noncomputable def pt_compute_main_2 (z r : Fl) : Fl := pbeta (1 / z) (r / 2) half false / 2

/-- prob/pt.ipp:42-45 -/
noncomputable def pt_compute_main_1 (z r : Fl) : Fl :=
  half - pbeta (z / (r + z)) half (r / 2) false / 2

/-- prob/pt.ipp:50-56 -/
noncomputable def pt_compute_main (x r : Fl) : Fl :=
  if r > x * x then
    (if x > 0 then 1 - pt_compute_main_1 (x * x) r else pt_compute_main_1 (x * x) r)
  else
    (if x > 0 then 1 - pt_compute_main_2 (1 + (x / r) * x) r
     else pt_compute_main_2 (1 + (x / r) * x) r)

/-- prob/pt.ipp:61-69 -/
noncomputable def pt_compute (x r : Fl) : Fl :=
  if r ==. 1 then pcauchy_compute x
  else if r ==. 2 then half + x / (2 * sqrt (x * x + 2))
  else pt_compute_main x r

/-- prob/pt.ipp:74-88 -/
noncomputable def pt (x dof : Fl) (log_form : Bool) : Fl :=
  if ¬ t_ok' x dof then nan
  else if isPosinf x then log_one_if log_form
  else if isNeginf x then log_zero_if log_form
  else if isPosinf dof then pnorm x 0 1 log_form
  else log_if (pt_compute x dof) log_form

/-! ## prob/pweibull.ipp -/

/-- prob/pweibull.ipp:34-38 -/
noncomputable def pweibull_compute (x shape : Fl) : Fl := -expm1 (-pow x shape)

/-- prob/pweibull.ipp:43-62 -/
noncomputable def pweibull_limit_vals (x shape scale : Fl) : Fl :=
  if isPosinf x then (if isPosinf scale then nan else 1)
  else if isPosinf scale then 0
  else if isPosinf shape then
    if x / scale > 1 then 1
    else if x / scale ==. 1 then -expm1 (-1)
    else 0
  else 0

/-- prob/pweibull.ipp:67-80 -/
noncomputable def pweibull (x shape scale : Fl) (log_form : Bool) : Fl :=
  if ¬ weibull_ok' x shape scale then nan
  else if x < eps then log_zero_if log_form
  else if isInf x ∨ isInf shape ∨ isInf scale then
    log_if (pweibull_limit_vals x shape scale) log_form
  else log_if (pweibull_compute (x / scale) shape) log_form

/-! ## prob/pinvgauss.ipp -/

/-- prob/pinvgauss.ipp:34-37 -/
noncomputable def pinvgauss_compute_term_1 (x mu lambda : Fl) : Fl :=
  pnorm1 (sqrt (lambda / x) * (x / mu - 1)) false

/-- prob/pinvgauss.ipp:42-45 -/
noncomputable def pinvgauss_compute_term_2 (x mu lambda : Fl) : Fl :=
  exp (2 * lambda / mu) * pnorm1 (-sqrt (lambda / x) * (x / mu + 1)) false

/-- prob/pinvgauss.ipp:50-53 -/
noncomputable def pinvgauss_compute (x mu lambda : Fl) : Fl :=
  pinvgauss_compute_term_1 x mu lambda + pinvgauss_compute_term_2 x mu lambda

/-- prob/pinvgauss.ipp:58-79 -/
noncomputable def pinvgauss_limit_vals (x mu lambda : Fl) : Fl :=
  if x ==. 0 ∧ (mu ==. 0 ∨ lambda ==. 0) then 1
  else if isPosinf x then 1
  else if isPosinf lambda then (if x ≥ mu then 1 else 0)
  else if lambda ==. 0 then 1
  else if mu ==. 0 then 1
  else 0

/-- prob/pinvgauss.ipp:84-96 -/
noncomputable def pinvgauss (x mu lambda : Fl) (log_form : Bool) : Fl :=
  if ¬ invgauss_ok' x mu lambda then nan
  else if x < 0 then log_zero_if log_form
  else if (isInf x ∨ isInf mu ∨ isInf lambda) ∨ x ==. 0 ∨ mu ==. 0 ∨ lambda ==. 0 then
    log_if (pinvgauss_limit_vals x mu lambda) log_form
  else log_if (pinvgauss_compute x mu lambda) log_form

/-! ## Discrete: prob/{pbern,pradem,pbinom,ppois}.ipp -/

/-- prob/pbern.ipp:34-43 -/
noncomputable def pbern_compute (x : ℤ) (prob : Fl) : Fl :=
  if x < 0 then 0 else if x ≥ 1 then 1 else 1 - prob

/-- prob/pbern.ipp:48-55 -/
noncomputable def pbern (x : ℤ) (prob : Fl) (log_form : Bool) : Fl :=
  if ¬ bern_ok prob then nan else log_if (pbern_compute x prob) log_form

/-- prob/pradem.ipp:34-43 -/
noncomputable def pradem_compute (x : ℤ) (prob : Fl) : Fl :=
  if x < -1 then 0 else if x ≥ 1 then 1 else 1 - prob

/-- prob/pradem.ipp:48-55 -/
noncomputable def pradem (x : ℤ) (prob : Fl) (log_form : Bool) : Fl :=
  if ¬ radem_ok prob then nan else log_if (pradem_compute x prob) log_form

/-- prob/pbinom.ipp:34-40. The recursion runs `count` up to `x`; `steps` is the number of recursive
calls left (the caller passes `x - count`, which is exactly what the C++ recursion performs for
`count ≤ x`). -/
noncomputable def pbinom_compute (n : ℤ) (prob : Fl) : ℕ → ℤ → Fl
  | 0, count => dbinom count n prob false
  | steps + 1, count => dbinom count n prob false + pbinom_compute n prob steps (count + 1)

/-- prob/pbinom.ipp:45-60, 67-71 -/
noncomputable def pbinom (x n : ℤ) (prob : Fl) (log_form : Bool) : Fl :=
  if ¬ binom_ok n prob then nan
  else if x < 0 then log_zero_if log_form
  else if x ≥ n then log_if 1 log_form
  else if n = 1 then pbern x prob log_form
  else log_if (pbinom_compute n prob (x - 0).toNat 0) log_form

/-- prob/ppois.ipp:34-47, the terms with `r_count ≥ 1` (lines 44-46); `steps = x - r_count`.
`gcem::factorial(r_count)` has the integer type of its argument. -/
noncomputable def ppois_compute_recur_tail (rate : Fl) : ℕ → ℕ → Fl
  | 0, r => powi rate r / ofInt (r.factorial : ℤ)
  | steps + 1, r =>
      powi rate r / ofInt (r.factorial : ℤ) + ppois_compute_recur_tail rate steps (r + 1)

/-- prob/ppois.ipp:34-47 -/
noncomputable def ppois_compute_recur (x : ℤ) (rate : Fl) : Fl :=
  if x = 0 then 1
  else if x = 1 then 1 + rate
  else 1 + ppois_compute_recur_tail rate (x - 1).toNat 1

/-- prob/ppois.ipp:52-59 -/
noncomputable def ppois_compute (x : ℤ) (rate : Fl) : Fl :=
  if rate > 10 ∨ x > 15 then 1 - igamma (ofInt (x + 1)) rate
  else exp (-rate) * ppois_compute_recur x rate

/-- prob/ppois.ipp:64-76 -/
noncomputable def ppois (x : ℤ) (rate : Fl) (log_form : Bool) : Fl :=
  if ¬ pois_ok rate then nan
  else if x < 0 then log_zero_if log_form
  else if isPosinf rate then log_zero_if log_form
  else log_if (ppois_compute x rate) log_form

end Stats

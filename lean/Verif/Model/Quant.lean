import Verif.Model.Prob

/-!
# Quantile functions

`/repo/include/stats_incl/quant/*.ipp`, scalar code. Recursions without a bound (`qbinom`, `qpois`) are
run with fuel; `runFuel` forgets the amount, so `none` means that the C++ recursion never returns.
-/

open Classical

namespace Stats
open Fl

/-- Result of a recursion given by its fuel-bounded runs; `none` if no amount of fuel suffices. -/
noncomputable def runFuel {α : Type*} (f : ℕ → Option α) : Option α :=
  if h : ∃ n, (f n).isSome then f (Nat.find h) else none

variable [Lib]

/-! ## quant/qnorm.ipp -/

/-- quant/qnorm.ipp:34-38 -/
noncomputable def qnorm_compute (p mu sigma : Fl) : Fl :=
  mu + SQRT2 * sigma * erfInv (2 * p - 1)

/-- quant/qnorm.ipp:43-68, 84-88 -/
noncomputable def qnorm (p mu sigma : Fl) : Fl :=
  if ¬ norm_ok mu sigma then nan
  else if ¬ prob_val_ok p then nan
  else if isPosinf sigma then nan
  else if sigma ==. 0 then mu
  else if p ==. 0 then (if isPosinf mu then nan else -pinf)
  else if p ==. 1 then (if isNeginf mu then nan else pinf)
  else qnorm_compute p mu sigma

/-- One-argument overload, quant/qnorm.ipp:92-97 -/
noncomputable def qnorm1 (p : Fl) : Fl := qnorm p 0 1

/-! ## quant/qlnorm.ipp -/

/-- quant/qlnorm.ipp:34-38 -/
noncomputable def qlnorm_compute (p mu sigma : Fl) : Fl := exp (qnorm p mu sigma)

/-- quant/qlnorm.ipp:43-53 -/
noncomputable def qlnorm (p mu sigma : Fl) : Fl :=
  if ¬ lnorm_ok mu sigma then nan
  else if ¬ prob_val_ok p then nan
  else qlnorm_compute p mu sigma

/-! ## quant/qunif.ipp -/

/-- quant/qunif.ipp:34-38 -/
noncomputable def qunif_compute (p a b : Fl) : Fl := a + p * (b - a)

/-- quant/qunif.ipp:43-61 -/
noncomputable def qunif (p a b : Fl) : Fl :=
  if ¬ unif_ok a b then nan
  else if ¬ prob_val_ok p then nan
  else if isInf a ∨ isInf b then nan
  else if p ==. 0 then a
  else if p ==. 1 then b
  else qunif_compute p a b

/-! ## quant/qexp.ipp -/

/-- quant/qexp.ipp:34-38 -/
noncomputable def qexp_compute (p rate : Fl) : Fl := -log (1 - p) / rate

/-- quant/qexp.ipp:43-58 -/
noncomputable def qexp (p rate : Fl) : Fl :=
  if ¬ exp_ok rate then nan
  else if ¬ prob_val_ok p then nan
  else if p ==. 0 then 0
  else if p ==. 1 then pinf
  else qexp_compute p rate

/-! ## quant/qcauchy.ipp -/

/-- quant/qcauchy.ipp:34-38 -/
noncomputable def qcauchy_compute (p mu sigma : Fl) : Fl := mu + sigma * tan (PI * (p - half))

/-- quant/qcauchy.ipp:43-68 -/
noncomputable def qcauchy (p mu sigma : Fl) : Fl :=
  if ¬ cauchy_ok mu sigma then nan
  else if ¬ prob_val_ok p then nan
  else if isPosinf sigma then nan
  else if sigma ==. 0 then mu
  else if p ==. 0 then (if isPosinf mu then nan else -pinf)
  else if p ==. 1 then (if isNeginf mu then nan else pinf)
  else qcauchy_compute p mu sigma

/-! ## quant/qlaplace.ipp -/

/-- quant/qlaplace.ipp:34-38 -/
noncomputable def qlaplace_compute (p mu sigma : Fl) : Fl :=
  mu - sigma * sgn (p - half) * log (1 - 2 * abs (p - half))

/-- quant/qlaplace.ipp:43-68 -/
noncomputable def qlaplace (p mu sigma : Fl) : Fl :=
  if ¬ laplace_ok mu sigma then nan
  else if ¬ prob_val_ok p then nan
  else if isPosinf sigma then nan
  else if sigma ==. 0 then mu
  else if p ==. 0 then (if isPosinf mu then nan else -pinf)
  else if p ==. 1 then (if isNeginf mu then nan else pinf)
  else qlaplace_compute p mu sigma

/-! ## quant/qlogis.ipp -/

/-- quant/qlogis.ipp:34-38 -/
noncomputable def qlogis_compute (p mu sigma : Fl) : Fl := mu + sigma * log (p / (1 - p))

/-- quant/qlogis.ipp:43-68 -/
noncomputable def qlogis (p mu sigma : Fl) : Fl :=
  if ¬ logis_ok mu sigma then nan
  else if ¬ prob_val_ok p then nan
  else if isPosinf sigma then nan
  else if sigma ==. 0 then mu
  else if p ==. 0 then (if isPosinf mu then nan else -pinf)
  else if p ==. 1 then (if isNeginf mu then nan else pinf)
  else qlogis_compute p mu sigma

/-! ## quant/qbeta.ipp -/

/-- quant/qbeta.ipp:34-38 -/
noncomputable def qbeta_compute (p a b : Fl) : Fl := ibetaInv a b p

/-- quant/qbeta.ipp:43-61 -/
noncomputable def qbeta_limit_vals (p a b : Fl) : Fl :=
  if a ==. 0 ∧ b ==. 0 then
    if p < half then 0 else if p > half then 1 else half
  else if a ==. 0 ∨ (isPosinf b ∧ ¬ isPosinf a) then 0
  else if b ==. 0 ∨ (isPosinf a ∧ ¬ isPosinf b) then 1
  else half

/-- quant/qbeta.ipp:66-84 -/
noncomputable def qbeta (p a b : Fl) : Fl :=
  if ¬ beta_ok a b then nan
  else if ¬ prob_val_ok p then nan
  else if p ==. 0 then 0
  else if p ==. 1 then 1
  else if a ==. 0 ∨ b ==. 0 ∨ (isPosinf a ∨ isPosinf b) then qbeta_limit_vals p a b
  else qbeta_compute p a b

/-! ## quant/qgamma.ipp -/

/-- quant/qgamma.ipp:34-38 -/
noncomputable def qgamma_compute (p shape scale : Fl) : Fl := scale * igammaInv shape p

/-- quant/qgamma.ipp:43-53 -/
noncomputable def qgamma_limit_vals (shape scale : Fl) : Fl :=
  if shape ==. 0 then (if isPosinf scale then nan else 0) else nan

/-- quant/qgamma.ipp:58-76 -/
noncomputable def qgamma (p shape scale : Fl) : Fl :=
  if ¬ gamma_ok shape scale then nan
  else if ¬ prob_val_ok p then nan
  else if p ==. 0 then 0
  else if p ==. 1 then pinf
  else if (isPosinf shape ∨ isPosinf scale) ∨ shape ==. 0 then qgamma_limit_vals shape scale
  else qgamma_compute p shape scale

/-! ## quant/qinvgamma.ipp -/

/-- quant/qinvgamma.ipp:34-38 -/
noncomputable def qinvgamma_compute (p shape rate : Fl) : Fl := rate / igammaInv shape (1 - p)

/-- quant/qinvgamma.ipp:43-53 -/
noncomputable def qinvgamma_limit_vals (shape rate : Fl) : Fl :=
  if rate ==. 0 then (if shape ==. 0 then nan else 0) else nan

/-- quant/qinvgamma.ipp:58-76 -/
noncomputable def qinvgamma (p shape rate : Fl) : Fl :=
  if ¬ invgamma_ok shape rate then nan
  else if ¬ prob_val_ok p then nan
  else if p ==. 0 then 0
  else if p ==. 1 then pinf
  else if (isPosinf shape ∨ isPosinf rate) ∨ shape ==. 0 ∨ rate ==. 0 then
    qinvgamma_limit_vals shape rate
  else qinvgamma_compute p shape rate

/-! ## quant/qchisq.ipp -/

/-- quant/qchisq.ipp:34-38 -/
noncomputable def qchisq_compute (p dof : Fl) : Fl := 2 * igammaInv (dof / 2) p

/-- quant/qchisq.ipp:43-58 -/
noncomputable def qchisq (p dof : Fl) : Fl :=
  if ¬ chisq_ok dof then nan
  else if ¬ prob_val_ok p then nan
  else if p ==. 0 then 0
  else if p ==. 1 then pinf
  else qchisq_compute p dof

/-! ## quant/qf.ipp -/

/-- quant/qf.ipp:34-38 -/
noncomputable def qf_compute_adj (I_inv ab_ratio : Fl) : Fl := I_inv / (ab_ratio * (1 - I_inv))

/-- quant/qf.ipp:43-47 -/
noncomputable def qf_compute (p a b : Fl) : Fl := qf_compute_adj (ibetaInv a b p) (a / b)

/-- quant/qf.ipp:52-63 -/
noncomputable def qf_limit_vals_dof (p df1 df2 : Fl) : Fl :=
  if isPosinf df1 ∧ isPosinf df2 then 1
  else if isPosinf df1 then df2 / qchisq (1 - p) df2
  else qchisq p df1 / df1

/-- quant/qf.ipp:68-86 -/
noncomputable def qf (p df1 df2 : Fl) : Fl :=
  if ¬ f_ok df1 df2 then nan
  else if ¬ prob_val_ok p then nan
  else if p ==. 0 then 0
  else if p ==. 1 then pinf
  else if isPosinf df1 ∨ isPosinf df2 then qf_limit_vals_dof p df1 df2
  else qf_compute p (df1 / 2) (df2 / 2)

/-! ## quant/qweibull.ipp -/

/-- quant/qweibull.ipp:34-38 -/
noncomputable def qweibull_compute (p shape scale : Fl) : Fl :=
  scale * pow (-log1p (-p)) (1 / shape)

/-- quant/qweibull.ipp:43-64 -/
noncomputable def qweibull (p shape scale : Fl) : Fl :=
  if ¬ weibull_ok shape scale then nan
  else if ¬ prob_val_ok p then nan
  else if shape ==. 0 then nan
  else if p ==. 0 then 0
  else if p ==. 1 then pinf
  else if isPosinf shape then scale
  else qweibull_compute p shape scale

/-! ## quant/qinvgauss.ipp -/

/-- quant/qinvgauss.ipp:39-43 -/
noncomputable def invgauss_mode (mu mu_div_lambda : Fl) : Fl :=
  mu * (sqrt (1 + 9 * mu_div_lambda * mu_div_lambda / 4) - 3 * mu_div_lambda / 2)

/-- `STATS_QINVGAUSS_MAX_ITER`, misc/statslib_options.hpp:213 -/
def QINVGAUSS_MAX_ITER : ℕ := 100

/-- quant/qinvgauss.ipp:48-66: `iter_1` and `iter_2` in one; `left` is `MAX_ITER - count`. The
unqualified `abs` is taken to be the floating-point one. -/
noncomputable def qinvgauss_compute_iter (p mu lambda : Fl) : ℕ → Fl → Fl
  | 0, qn => qn
  | left + 1, qn =>
      let dval := p - pinvgauss qn mu lambda false
      if abs dval < minpos then qn
      else qinvgauss_compute_iter p mu lambda left (qn + dval / dinvgauss qn mu lambda false)

/-- quant/qinvgauss.ipp:72-76 -/
noncomputable def qinvgauss_compute (p mu lambda : Fl) : Fl :=
  qinvgauss_compute_iter p mu lambda QINVGAUSS_MAX_ITER (invgauss_mode mu (mu / lambda))

/-- quant/qinvgauss.ipp:81-108 -/
noncomputable def qinvgauss (p mu lambda : Fl) : Fl :=
  if ¬ invgauss_ok mu lambda then nan
  else if ¬ prob_val_ok p then nan
  else if isPosinf lambda then nan
  else if mu ==. 0 then nan
  else if lambda ==. 0 then (if p ==. 1 then pinf else 0)
  else if p ==. 1 then pinf
  else if p ==. 0 then 0
  else qinvgauss_compute p mu lambda

/-! ## quant/qt.ipp -/

/-- quant/qt.ipp:39-43 -/
noncomputable def qt_int_coef_a (dof : Fl) : Fl := 1 / (dof - half)
/-- quant/qt.ipp:48-52 -/
noncomputable def qt_int_coef_b (a : Fl) : Fl := 48 / (a * a)
/-- quant/qt.ipp:57-61 -/
noncomputable def qt_int_coef_c (a b : Fl) : Fl :=
  lit 96.36 + a * (-16 + a * (-98 + 20700 * a / b))
/-- quant/qt.ipp:66-73 -/
noncomputable def qt_int_coef_c_update (x dof c : Fl) : Fl :=
  if dof < 5 then c + lit 0.3 * (dof - lit 4.5) * (x + lit 0.6) else c
/-- quant/qt.ipp:78-83 -/
noncomputable def qt_int_coef_d (dof a b c : Fl) : Fl :=
  dof * sqrt a * SQRTHALFPI * (1 + (-3 + lit 94.5 / (b + c)) / b)
/-- quant/qt.ipp:90-94 -/
noncomputable def qt_int_y_init (p dof d : Fl) : Fl := pow (d * p) (2 / dof)

/-- quant/qt.ipp:101-114, stage 2 (line 107) -/
noncomputable def qt_int_y_1_stage2 (y x b c : Fl) : Fl :=
  x * (1 + ((y * (36 + y * (lit 6.3 + y * lit 0.4)) + lit 94.5) / c - y - 3) / b)
/-- quant/qt.ipp:101-114, stage 4 (lines 111-113) -/
noncomputable def qt_int_y_1_stage4 (y : Fl) : Fl :=
  if y > lit 0.1 then expm1 y else y + y * y * (12 + y * (4 + y)) / 24

/-- quant/qt.ipp:121-137, the five stages of the recursion in sequence. Stages 0, 1: `c` is updated
twice and `y = x*x`; stage 2, 3, 4 update `y`. -/
noncomputable def qt_int_y_1 (x dof a b c d : Fl) : Fl :=
  let c1 := qt_int_coef_c_update x dof c
  let y1 := x * x
  let c2 := b + c1 + x * (-2 + x * (-7 + x * (-5 + lit 0.05 * x * d)))
  let y2 := qt_int_y_1_stage2 y1 x b c2
  let y3 := a * y2 * y2
  qt_int_y_1_stage4 y3

/-- quant/qt.ipp:148-152 -/
noncomputable def qt_int_y_2_iter_val_update (v dof x : Fl) : Fl :=
  v + x * (1 + x * v * (1 + dof) / (2 * (dof + v * v)))

/-- quant/qt.ipp:157-173; `left` is `6 - iter`. -/
noncomputable def qt_int_y_2_iter_loop (p dof : Fl) : ℕ → Fl → Fl → Fl
  | 0, v, x => qt_int_y_2_iter_val_update v dof x
  | left + 1, v, x =>
      let v' := qt_int_y_2_iter_val_update v dof x
      qt_int_y_2_iter_loop p dof left v' ((1 - pt v' dof false - p) / dt v' dof false)

/-- quant/qt.ipp:178-182 -/
noncomputable def qt_int_y_2_iter_begin (p dof y : Fl) : Fl :=
  qt_int_y_2_iter_loop (p / 2) dof 6 (sqrt (dof * y)) 0

/-- quant/qt.ipp:187-191 -/
noncomputable def qt_int_y_2_mterm (y dof d : Fl) : Fl :=
  half / (dof + 4) +
    1 / (((dof + 6) / (dof * y) - lit 0.089 * d - lit 0.822) * (dof + 2) * 3)

/-- quant/qt.ipp:196-200 -/
noncomputable def qt_int_y_2 (p y dof d : Fl) : Fl :=
  qt_int_y_2_iter_begin p dof
    (1 / y + (dof + 1) * (qt_int_y_2_mterm y dof d * y - 1) / (dof + 2))

/-- quant/qt.ipp:207-214 -/
noncomputable def qt_int_choose (p y dof a b c d : Fl) : Fl :=
  if y > lit 0.05 + a then sqrt (dof * qt_int_y_1 (qnorm1 (half * p)) dof a b c d)
  else qt_int_y_2 p y dof d

/-- quant/qt.ipp:219-241, the five stages of `qt_int_main_iter` in sequence. -/
noncomputable def qt_int_main_iter (p dof : Fl) : Fl :=
  let a := qt_int_coef_a dof
  let b := qt_int_coef_b a
  let c := qt_int_coef_c a b
  let d := qt_int_coef_d dof a b c
  qt_int_choose p (qt_int_y_init p dof d) dof a b c d

/-- quant/qt.ipp:246-252 -/
noncomputable def qt_int_main (p dof : Fl) : Fl :=
  if p < half then -qt_int_main_iter (2 * p) dof else qt_int_main_iter (2 * p) dof

/-- quant/qt.ipp:257-280 -/
noncomputable def qt (p dof : Fl) : Fl :=
  if ¬ t_ok dof then nan
  else if ¬ prob_val_ok p then nan
  else if p ==. 0 then -pinf
  else if p ==. 1 then pinf
  else if dof ==. 1 then tan (PI * (p - half))
  else if dof ==. 2 then (2 * p - 1) / sqrt (2 * p * (1 - p))
  else if dof ==. pinf then qnorm p 0 1
  else qt_int_main p dof

/-! ## Discrete: quant/{qbern,qradem,qbinom,qpois}.ipp -/

/-- quant/qbern.ipp:34-46 -/
noncomputable def qbern (p prob : Fl) : Fl :=
  if ¬ bern_ok prob then nan
  else if ¬ prob_val_ok p then nan
  else if p > 1 - prob then 1 else 0

/-- quant/qradem.ipp:34-46 -/
noncomputable def qradem (p prob : Fl) : Fl :=
  if ¬ radem_ok prob then nan
  else if ¬ prob_val_ok p then nan
  else if p > 1 - prob then 1 else -1

/-- quant/qbinom.ipp:34-40 -/
noncomputable def qbinom_recur (p : Fl) (n : ℤ) (prob : Fl) : ℕ → Fl → ℤ → Option Fl
  | 0, _, _ => none
  | fuel + 1, value, count =>
      if value < p then qbinom_recur p n prob fuel (pbinom count n prob false) (count + 1)
      else some (ofInt (count - 1))

/-- quant/qbinom.ipp:45-60 -/
noncomputable def qbinom (p : Fl) (n : ℤ) (prob : Fl) : Option Fl :=
  if ¬ binom_ok n prob then some nan
  else if ¬ prob_val_ok p then some nan
  else if p ==. 0 then some 0
  else if p ==. 1 then some (ofInt n)
  else runFuel (fun fuel => qbinom_recur p n prob fuel 0 0)

/-- quant/qpois.ipp:34-43 -/
noncomputable def qpois_compute_right_search (p rate : Fl) : ℕ → Fl → ℤ → Option Fl
  | 0, _, _ => none
  | fuel + 1, value, count =>
      if value ≤ p then qpois_compute_right_search p rate fuel (ppois count rate false) (count + 1)
      else if count > 0 then some (ofInt (count - 1)) else some 0

/-- quant/qpois.ipp:48-52 -/
noncomputable def qpois_compute_search_begin (p rate : Fl) (count : ℤ) : Option Fl :=
  runFuel (fun fuel => qpois_compute_right_search p rate fuel (ppois count rate false) count)

/-- quant/qpois.ipp:57-61. The cast truncates; a value outside `llint_t` makes the cast undefined in C++, which is
not modelled here but in `qpoisT` (Model/Trace.lean). The NaN that `qnorm` gives for an infinite rate is dropped by `max`. -/
noncomputable def qpois_trunc_normal_approx (p rate : Fl) : ℤ :=
  ⌊toR (Fl.max 0 (qnorm p rate (sqrt rate) - 3))⌋

/-- quant/qpois.ipp:66-86 -/
noncomputable def qpois (p rate : Fl) : Option Fl :=
  if ¬ pois_ok rate then some nan
  else if ¬ prob_val_ok p then some nan
  else if p ==. 0 then some 0
  else if eps > rate then some 0
  else if p ==. 1 then some pinf
  else if rate < 11 then runFuel (fun fuel => qpois_compute_right_search p rate fuel 0 0)
  else qpois_compute_search_begin p rate (qpois_trunc_normal_approx p rate)

end Stats

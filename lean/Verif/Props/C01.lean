import Verif.Lemmas.Params

/-!
# C01: invalid parameters give NaN (every rounding, every library)

`Spec.*` are the parameter domains of `Verif/Spec/Params.lean`; they do not mention the checks of the code.
-/

open Classical
namespace Stats
open Fl Spec
variable [Lib]

theorem C01_dnorm (x : Fl) {mu sigma : Fl} (h : ¬ LocScale mu sigma) (log_form : Bool) :
    dnorm x mu sigma log_form = nan := by
  rw [dnorm, if_pos (fun h' => (mt (norm_ok_iff _ _).1 h) h'.2)]

theorem C01_dlnorm (x : Fl) {mu sigma : Fl} (h : ¬ LocScale mu sigma) (log_form : Bool) :
    dlnorm x mu sigma log_form = nan := by
  rw [dlnorm, if_pos (fun h' => (mt (lnorm_ok_iff _ _).1 h) h'.2)]

theorem C01_dcauchy (x : Fl) {mu sigma : Fl} (h : ¬ LocScale mu sigma) (log_form : Bool) :
    dcauchy x mu sigma log_form = nan := by
  rw [dcauchy, if_pos (fun h' => (mt (cauchy_ok_iff _ _).1 h) h'.2)]

theorem C01_dlaplace (x : Fl) {mu sigma : Fl} (h : ¬ LocScale mu sigma) (log_form : Bool) :
    dlaplace x mu sigma log_form = nan := by
  rw [dlaplace, if_pos (fun h' => (mt (laplace_ok_iff _ _).1 h) h'.2)]

theorem C01_dlogis (x : Fl) {mu sigma : Fl} (h : ¬ LocScale mu sigma) (log_form : Bool) :
    dlogis x mu sigma log_form = nan := by
  rw [dlogis, if_pos (fun h' => (mt (logis_ok_iff _ _).1 h) h'.2)]

theorem C01_dunif (x : Fl) {a b : Fl} (h : ¬ Ends a b) (log_form : Bool) :
    dunif x a b log_form = nan := by
  rw [dunif, if_pos (fun h' => (mt (unif_ok_iff _ _).1 h) h'.2)]

theorem C01_dexp (x : Fl) {rate : Fl} (h : ¬ NonNeg rate) (log_form : Bool) :
    dexp x rate log_form = nan := by
  rw [dexp, if_pos (fun h' => (mt (exp_ok_iff _).1 h) h'.2)]

theorem C01_dbeta (x : Fl) {a b : Fl} (h : ¬ TwoNonNeg a b) (log_form : Bool) :
    dbeta x a b log_form = nan := by
  rw [dbeta, if_pos (fun h' => (mt (beta_ok_iff _ _).1 h) h'.2)]

theorem C01_dgamma (x : Fl) {shape scale : Fl} (h : ¬ ShapeScale shape scale) (log_form : Bool) :
    dgamma x shape scale log_form = nan := by
  rw [dgamma, if_pos (fun h' => (mt gamma_ok_imp h) h'.2)]

theorem C01_dinvgamma (x : Fl) {shape rate : Fl} (h : ¬ TwoNonNeg shape rate) (log_form : Bool) :
    dinvgamma x shape rate log_form = nan := by
  rw [dinvgamma, if_pos (fun h' => (mt (invgamma_ok_iff _ _).1 h) h'.2)]

theorem C01_dinvgauss (x : Fl) {mu lambda : Fl} (h : ¬ TwoNonNeg mu lambda) (log_form : Bool) :
    dinvgauss x mu lambda log_form = nan := by
  rw [dinvgauss, if_pos (fun h' => (mt (invgauss_ok_iff _ _).1 h) h'.2)]

theorem C01_dchisq (x : Fl) {dof : Fl} (h : ¬ NonNeg dof) (log_form : Bool) :
    dchisq x dof log_form = nan := by
  rw [dchisq, if_pos (fun h' => (mt (chisq_ok_iff _).1 h) h'.2)]

theorem C01_df (x : Fl) {df1 df2 : Fl} (h : ¬ TwoPos df1 df2) (log_form : Bool) :
    df x df1 df2 log_form = nan := by
  rw [df, if_pos (fun h' => (mt f_ok_imp h) h'.2)]

theorem C01_dt (x : Fl) {dof : Fl} (h : ¬ Pos dof) (log_form : Bool) :
    dt x dof log_form = nan := by
  rw [dt, if_pos (fun h' => (mt t_ok_imp h) h'.2)]

theorem C01_dweibull (x : Fl) {shape scale : Fl} (h : ¬ TwoPos shape scale) (log_form : Bool) :
    dweibull x shape scale log_form = nan := by
  rw [dweibull, if_pos (fun h' => (mt weibull_ok_imp h) h'.2)]

theorem C01_dbern (x : ℤ) {prob : Fl} (h : ¬ Prob prob) (log_form : Bool) :
    dbern x prob log_form = nan := by
  rw [dbern, if_pos (mt (bern_ok_iff _).1 h)]

theorem C01_dradem (x : ℤ) {prob : Fl} (h : ¬ Prob prob) (log_form : Bool) :
    dradem x prob log_form = nan := by
  rw [dradem, if_pos (mt (radem_ok_iff _).1 h)]

theorem C01_dbinom (x : ℤ) {n : ℤ} {prob : Fl} (h : ¬ Trials n prob) (log_form : Bool) :
    dbinom x n prob log_form = nan := by
  rw [dbinom, if_pos (mt (binom_ok_iff _ _).1 h)]

theorem C01_dpois (x : ℤ) {rate : Fl} (h : ¬ NonNeg rate) (log_form : Bool) :
    dpois x rate log_form = nan := by
  rw [dpois, if_pos (mt (pois_ok_iff _).1 h)]

theorem C01_pnorm (x : Fl) {mu sigma : Fl} (h : ¬ LocScale mu sigma) (log_form : Bool) :
    pnorm x mu sigma log_form = nan := by
  rw [pnorm, if_pos (fun h' => (mt (norm_ok_iff _ _).1 h) h'.2)]

theorem C01_plnorm (x : Fl) {mu sigma : Fl} (h : ¬ LocScale mu sigma) (log_form : Bool) :
    plnorm x mu sigma log_form = nan := by
  rw [plnorm, if_pos (fun h' => (mt (lnorm_ok_iff _ _).1 h) h'.2)]

theorem C01_pcauchy (x : Fl) {mu sigma : Fl} (h : ¬ LocScale mu sigma) (log_form : Bool) :
    pcauchy x mu sigma log_form = nan := by
  rw [pcauchy, if_pos (fun h' => (mt (cauchy_ok_iff _ _).1 h) h'.2)]

theorem C01_plaplace (x : Fl) {mu sigma : Fl} (h : ¬ LocScale mu sigma) (log_form : Bool) :
    plaplace x mu sigma log_form = nan := by
  rw [plaplace, if_pos (fun h' => (mt (laplace_ok_iff _ _).1 h) h'.2)]

theorem C01_plogis (x : Fl) {mu sigma : Fl} (h : ¬ LocScale mu sigma) (log_form : Bool) :
    plogis x mu sigma log_form = nan := by
  rw [plogis, if_pos (fun h' => (mt (logis_ok_iff _ _).1 h) h'.2)]

theorem C01_punif (x : Fl) {a b : Fl} (h : ¬ Ends a b) (log_form : Bool) :
    punif x a b log_form = nan := by
  rw [punif, if_pos (fun h' => (mt (unif_ok_iff _ _).1 h) h'.2)]

theorem C01_pexp (x : Fl) {rate : Fl} (h : ¬ NonNeg rate) (log_form : Bool) :
    pexp x rate log_form = nan := by
  rw [pexp, if_pos (fun h' => (mt (exp_ok_iff _).1 h) h'.2)]

theorem C01_pbeta (x : Fl) {a b : Fl} (h : ¬ TwoNonNeg a b) (log_form : Bool) :
    pbeta x a b log_form = nan := by
  rw [pbeta, if_pos (fun h' => (mt (beta_ok_iff _ _).1 h) h'.2)]

theorem C01_pgamma (x : Fl) {shape scale : Fl} (h : ¬ ShapeScale shape scale) (log_form : Bool) :
    pgamma x shape scale log_form = nan := by
  rw [pgamma, if_pos (fun h' => (mt gamma_ok_imp h) h'.2)]

theorem C01_pinvgamma (x : Fl) {shape rate : Fl} (h : ¬ TwoNonNeg shape rate) (log_form : Bool) :
    pinvgamma x shape rate log_form = nan := by
  rw [pinvgamma, if_pos (fun h' => (mt (invgamma_ok_iff _ _).1 h) h'.2)]

theorem C01_pinvgauss (x : Fl) {mu lambda : Fl} (h : ¬ TwoNonNeg mu lambda) (log_form : Bool) :
    pinvgauss x mu lambda log_form = nan := by
  rw [pinvgauss, if_pos (fun h' => (mt (invgauss_ok_iff _ _).1 h) h'.2)]

theorem C01_pchisq (x : Fl) {dof : Fl} (h : ¬ NonNeg dof) (log_form : Bool) :
    pchisq x dof log_form = nan := by
  rw [pchisq, if_pos (fun h' => (mt (chisq_ok_iff _).1 h) h'.2)]

theorem C01_pf (x : Fl) {df1 df2 : Fl} (h : ¬ TwoPos df1 df2) (log_form : Bool) :
    pf x df1 df2 log_form = nan := by
  rw [pf, if_pos (fun h' => (mt f_ok_imp h) h'.2)]

theorem C01_pt (x : Fl) {dof : Fl} (h : ¬ Pos dof) (log_form : Bool) :
    pt x dof log_form = nan := by
  rw [pt, if_pos (fun h' => (mt t_ok_imp h) h'.2)]

theorem C01_pweibull (x : Fl) {shape scale : Fl} (h : ¬ TwoPos shape scale) (log_form : Bool) :
    pweibull x shape scale log_form = nan := by
  rw [pweibull, if_pos (fun h' => (mt weibull_ok_imp h) h'.2)]

theorem C01_pbern (x : ℤ) {prob : Fl} (h : ¬ Prob prob) (log_form : Bool) :
    pbern x prob log_form = nan := by
  rw [pbern, if_pos (mt (bern_ok_iff _).1 h)]

theorem C01_pradem (x : ℤ) {prob : Fl} (h : ¬ Prob prob) (log_form : Bool) :
    pradem x prob log_form = nan := by
  rw [pradem, if_pos (mt (radem_ok_iff _).1 h)]

theorem C01_pbinom (x : ℤ) {n : ℤ} {prob : Fl} (h : ¬ Trials n prob) (log_form : Bool) :
    pbinom x n prob log_form = nan := by
  rw [pbinom, if_pos (mt (binom_ok_iff _ _).1 h)]

theorem C01_ppois (x : ℤ) {rate : Fl} (h : ¬ NonNeg rate) (log_form : Bool) :
    ppois x rate log_form = nan := by
  rw [ppois, if_pos (mt (pois_ok_iff _).1 h)]

theorem C01_qnorm (p : Fl) {mu sigma : Fl} (h : ¬ LocScale mu sigma) : qnorm p mu sigma = nan := by
  rw [qnorm, if_pos (mt (norm_ok_iff _ _).1 h)]

theorem C01_qlnorm (p : Fl) {mu sigma : Fl} (h : ¬ LocScale mu sigma) : qlnorm p mu sigma = nan := by
  rw [qlnorm, if_pos (mt (lnorm_ok_iff _ _).1 h)]

theorem C01_qcauchy (p : Fl) {mu sigma : Fl} (h : ¬ LocScale mu sigma) : qcauchy p mu sigma = nan := by
  rw [qcauchy, if_pos (mt (cauchy_ok_iff _ _).1 h)]

theorem C01_qlaplace (p : Fl) {mu sigma : Fl} (h : ¬ LocScale mu sigma) : qlaplace p mu sigma = nan := by
  rw [qlaplace, if_pos (mt (laplace_ok_iff _ _).1 h)]

theorem C01_qlogis (p : Fl) {mu sigma : Fl} (h : ¬ LocScale mu sigma) : qlogis p mu sigma = nan := by
  rw [qlogis, if_pos (mt (logis_ok_iff _ _).1 h)]

theorem C01_qunif (p : Fl) {a b : Fl} (h : ¬ Ends a b) : qunif p a b = nan := by
  rw [qunif, if_pos (mt (unif_ok_iff _ _).1 h)]

theorem C01_qexp (p : Fl) {rate : Fl} (h : ¬ NonNeg rate) : qexp p rate = nan := by
  rw [qexp, if_pos (mt (exp_ok_iff _).1 h)]

theorem C01_qbeta (p : Fl) {a b : Fl} (h : ¬ TwoNonNeg a b) : qbeta p a b = nan := by
  rw [qbeta, if_pos (mt (beta_ok_iff _ _).1 h)]

theorem C01_qgamma (p : Fl) {shape scale : Fl} (h : ¬ ShapeScale shape scale) : qgamma p shape scale = nan := by
  rw [qgamma, if_pos (mt gamma_ok_imp h)]

theorem C01_qinvgamma (p : Fl) {shape rate : Fl} (h : ¬ TwoNonNeg shape rate) : qinvgamma p shape rate = nan := by
  rw [qinvgamma, if_pos (mt (invgamma_ok_iff _ _).1 h)]

theorem C01_qinvgauss (p : Fl) {mu lambda : Fl} (h : ¬ TwoNonNeg mu lambda) : qinvgauss p mu lambda = nan := by
  rw [qinvgauss, if_pos (mt (invgauss_ok_iff _ _).1 h)]

theorem C01_qchisq (p : Fl) {dof : Fl} (h : ¬ NonNeg dof) : qchisq p dof = nan := by
  rw [qchisq, if_pos (mt (chisq_ok_iff _).1 h)]

theorem C01_qf (p : Fl) {df1 df2 : Fl} (h : ¬ TwoPos df1 df2) : qf p df1 df2 = nan := by
  rw [qf, if_pos (mt f_ok_imp h)]

theorem C01_qt (p : Fl) {dof : Fl} (h : ¬ Pos dof) : qt p dof = nan := by
  rw [qt, if_pos (mt t_ok_imp h)]

theorem C01_qweibull (p : Fl) {shape scale : Fl} (h : ¬ TwoPos shape scale) : qweibull p shape scale = nan := by
  rw [qweibull, if_pos (mt weibull_ok_imp h)]

theorem C01_qbern (p : Fl) {prob : Fl} (h : ¬ Prob prob) : qbern p prob = nan := by
  rw [qbern, if_pos (mt (bern_ok_iff _).1 h)]

theorem C01_qradem (p : Fl) {prob : Fl} (h : ¬ Prob prob) : qradem p prob = nan := by
  rw [qradem, if_pos (mt (radem_ok_iff _).1 h)]

theorem C01_qbinom (p : Fl) {n : ℤ} {prob : Fl} (h : ¬ Trials n prob) : qbinom p n prob = some nan := by
  rw [qbinom, if_pos (mt (binom_ok_iff _ _).1 h)]

theorem C01_qpois (p : Fl) {rate : Fl} (h : ¬ NonNeg rate) : qpois p rate = some nan := by
  rw [qpois, if_pos (mt (pois_ok_iff _).1 h)]

/-! The hypotheses can be met. -/
example : ¬ LocScale (fin 0) (fin (-1)) := by simp [LocScale, nonNeg_iff]
example : ¬ LocScale nan (fin 1) := by simp [LocScale, Num]
example : ¬ Ends (fin 1) (fin 1) := by simp [ends_iff]
example : ¬ TwoNonNeg (fin 1) (fin (-2)) := by simp [TwoNonNeg, nonNeg_iff]
example : ¬ ShapeScale (fin 1) (fin 0) := by simp [ShapeScale, pos_iff]
example : ¬ TwoPos (fin 0) (fin 1) := by simp [TwoPos, pos_iff]
example : ¬ NonNeg ninf := by simp [nonNeg_iff]
example : ¬ Pos (fin (-1)) := by simp [pos_iff]
example : ¬ Prob (fin 2) := by simp [prob_iff]
example : ¬ Prob pinf := by simp [prob_iff]
example : ¬ Trials (-1) (fin 0) := by simp [Trials]

end Stats

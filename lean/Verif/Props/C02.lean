import Verif.Lemmas.Params

/-! # C02: a NaN evaluation point gives NaN; C03: a quantile of a non-probability is NaN
(every rounding, every library) -/

open Classical
namespace Stats
open Fl Spec
variable [Lib]

theorem C02_dnorm (mu sigma : Fl) (log_form : Bool) : dnorm nan mu sigma log_form = nan := by
  rw [dnorm, if_pos (fun h => h.1 rfl)]

theorem C02_dlnorm (mu sigma : Fl) (log_form : Bool) : dlnorm nan mu sigma log_form = nan := by
  rw [dlnorm, if_pos (fun h => h.1 rfl)]

theorem C02_dcauchy (mu sigma : Fl) (log_form : Bool) : dcauchy nan mu sigma log_form = nan := by
  rw [dcauchy, if_pos (fun h => h.1 rfl)]

theorem C02_dlaplace (mu sigma : Fl) (log_form : Bool) : dlaplace nan mu sigma log_form = nan := by
  rw [dlaplace, if_pos (fun h => h.1 rfl)]

theorem C02_dlogis (mu sigma : Fl) (log_form : Bool) : dlogis nan mu sigma log_form = nan := by
  rw [dlogis, if_pos (fun h => h.1 rfl)]

theorem C02_dunif (a b : Fl) (log_form : Bool) : dunif nan a b log_form = nan := by
  rw [dunif, if_pos (fun h => h.1 rfl)]

theorem C02_dexp (rate : Fl) (log_form : Bool) : dexp nan rate log_form = nan := by
  rw [dexp, if_pos (fun h => h.1 rfl)]

theorem C02_dbeta (a b : Fl) (log_form : Bool) : dbeta nan a b log_form = nan := by
  rw [dbeta, if_pos (fun h => h.1 rfl)]

theorem C02_dgamma (shape scale : Fl) (log_form : Bool) : dgamma nan shape scale log_form = nan := by
  rw [dgamma, if_pos (fun h => h.1 rfl)]

theorem C02_dinvgamma (shape rate : Fl) (log_form : Bool) : dinvgamma nan shape rate log_form = nan := by
  rw [dinvgamma, if_pos (fun h => h.1 rfl)]

theorem C02_dinvgauss (mu lambda : Fl) (log_form : Bool) : dinvgauss nan mu lambda log_form = nan := by
  rw [dinvgauss, if_pos (fun h => h.1 rfl)]

theorem C02_dchisq (dof : Fl) (log_form : Bool) : dchisq nan dof log_form = nan := by
  rw [dchisq, if_pos (fun h => h.1 rfl)]

theorem C02_df (df1 df2 : Fl) (log_form : Bool) : df nan df1 df2 log_form = nan := by
  rw [df, if_pos (fun h => h.1 rfl)]

theorem C02_dt (dof : Fl) (log_form : Bool) : dt nan dof log_form = nan := by
  rw [dt, if_pos (fun h => h.1 rfl)]

theorem C02_dweibull (shape scale : Fl) (log_form : Bool) : dweibull nan shape scale log_form = nan := by
  rw [dweibull, if_pos (fun h => h.1 rfl)]

theorem C02_pnorm (mu sigma : Fl) (log_form : Bool) : pnorm nan mu sigma log_form = nan := by
  rw [pnorm, if_pos (fun h => h.1 rfl)]

theorem C02_plnorm (mu sigma : Fl) (log_form : Bool) : plnorm nan mu sigma log_form = nan := by
  rw [plnorm, if_pos (fun h => h.1 rfl)]

theorem C02_pcauchy (mu sigma : Fl) (log_form : Bool) : pcauchy nan mu sigma log_form = nan := by
  rw [pcauchy, if_pos (fun h => h.1 rfl)]

theorem C02_plaplace (mu sigma : Fl) (log_form : Bool) : plaplace nan mu sigma log_form = nan := by
  rw [plaplace, if_pos (fun h => h.1 rfl)]

theorem C02_plogis (mu sigma : Fl) (log_form : Bool) : plogis nan mu sigma log_form = nan := by
  rw [plogis, if_pos (fun h => h.1 rfl)]

theorem C02_punif (a b : Fl) (log_form : Bool) : punif nan a b log_form = nan := by
  rw [punif, if_pos (fun h => h.1 rfl)]

theorem C02_pexp (rate : Fl) (log_form : Bool) : pexp nan rate log_form = nan := by
  rw [pexp, if_pos (fun h => h.1 rfl)]

theorem C02_pbeta (a b : Fl) (log_form : Bool) : pbeta nan a b log_form = nan := by
  rw [pbeta, if_pos (fun h => h.1 rfl)]

theorem C02_pgamma (shape scale : Fl) (log_form : Bool) : pgamma nan shape scale log_form = nan := by
  rw [pgamma, if_pos (fun h => h.1 rfl)]

theorem C02_pinvgamma (shape rate : Fl) (log_form : Bool) : pinvgamma nan shape rate log_form = nan := by
  rw [pinvgamma, if_pos (fun h => h.1 rfl)]

theorem C02_pinvgauss (mu lambda : Fl) (log_form : Bool) : pinvgauss nan mu lambda log_form = nan := by
  rw [pinvgauss, if_pos (fun h => h.1 rfl)]

theorem C02_pchisq (dof : Fl) (log_form : Bool) : pchisq nan dof log_form = nan := by
  rw [pchisq, if_pos (fun h => h.1 rfl)]

theorem C02_pf (df1 df2 : Fl) (log_form : Bool) : pf nan df1 df2 log_form = nan := by
  rw [pf, if_pos (fun h => h.1 rfl)]

theorem C02_pt (dof : Fl) (log_form : Bool) : pt nan dof log_form = nan := by
  rw [pt, if_pos (fun h => h.1 rfl)]

theorem C02_pweibull (shape scale : Fl) (log_form : Bool) : pweibull nan shape scale log_form = nan := by
  rw [pweibull, if_pos (fun h => h.1 rfl)]

theorem C02_qnorm (mu sigma : Fl) : qnorm nan mu sigma = nan := by
  simp [qnorm, prob_val_ok]

theorem C02_qlnorm (mu sigma : Fl) : qlnorm nan mu sigma = nan := by
  simp [qlnorm, prob_val_ok]

theorem C02_qcauchy (mu sigma : Fl) : qcauchy nan mu sigma = nan := by
  simp [qcauchy, prob_val_ok]

theorem C02_qlaplace (mu sigma : Fl) : qlaplace nan mu sigma = nan := by
  simp [qlaplace, prob_val_ok]

theorem C02_qlogis (mu sigma : Fl) : qlogis nan mu sigma = nan := by
  simp [qlogis, prob_val_ok]

theorem C02_qunif (a b : Fl) : qunif nan a b = nan := by
  simp [qunif, prob_val_ok]

theorem C02_qexp (rate : Fl) : qexp nan rate = nan := by
  simp [qexp, prob_val_ok]

theorem C02_qbeta (a b : Fl) : qbeta nan a b = nan := by
  simp [qbeta, prob_val_ok]

theorem C02_qgamma (shape scale : Fl) : qgamma nan shape scale = nan := by
  simp [qgamma, prob_val_ok]

theorem C02_qinvgamma (shape rate : Fl) : qinvgamma nan shape rate = nan := by
  simp [qinvgamma, prob_val_ok]

theorem C02_qinvgauss (mu lambda : Fl) : qinvgauss nan mu lambda = nan := by
  simp [qinvgauss, prob_val_ok]

theorem C02_qchisq (dof : Fl) : qchisq nan dof = nan := by
  simp [qchisq, prob_val_ok]

theorem C02_qf (df1 df2 : Fl) : qf nan df1 df2 = nan := by
  simp [qf, prob_val_ok]

theorem C02_qt (dof : Fl) : qt nan dof = nan := by
  simp [qt, prob_val_ok]

theorem C02_qweibull (shape scale : Fl) : qweibull nan shape scale = nan := by
  simp [qweibull, prob_val_ok]

theorem C02_qbern (prob : Fl) : qbern nan prob = nan := by
  simp [qbern, prob_val_ok]

theorem C02_qradem (prob : Fl) : qradem nan prob = nan := by
  simp [qradem, prob_val_ok]

theorem C02_qbinom (n : ℤ) (prob : Fl) : qbinom nan n prob = some nan := by
  simp [qbinom, prob_val_ok]

theorem C02_qpois (rate : Fl) : qpois nan rate = some nan := by
  simp [qpois, prob_val_ok]

theorem C03_qnorm {p : Fl} (hp : ¬ Prob p) (mu sigma : Fl) : qnorm p mu sigma = nan := by
  rw [qnorm]; split
  · rfl
  · rw [if_pos (mt (prob_val_ok_iff p).1 hp)]

theorem C03_qlnorm {p : Fl} (hp : ¬ Prob p) (mu sigma : Fl) : qlnorm p mu sigma = nan := by
  rw [qlnorm]; split
  · rfl
  · rw [if_pos (mt (prob_val_ok_iff p).1 hp)]

theorem C03_qcauchy {p : Fl} (hp : ¬ Prob p) (mu sigma : Fl) : qcauchy p mu sigma = nan := by
  rw [qcauchy]; split
  · rfl
  · rw [if_pos (mt (prob_val_ok_iff p).1 hp)]

theorem C03_qlaplace {p : Fl} (hp : ¬ Prob p) (mu sigma : Fl) : qlaplace p mu sigma = nan := by
  rw [qlaplace]; split
  · rfl
  · rw [if_pos (mt (prob_val_ok_iff p).1 hp)]

theorem C03_qlogis {p : Fl} (hp : ¬ Prob p) (mu sigma : Fl) : qlogis p mu sigma = nan := by
  rw [qlogis]; split
  · rfl
  · rw [if_pos (mt (prob_val_ok_iff p).1 hp)]

theorem C03_qunif {p : Fl} (hp : ¬ Prob p) (a b : Fl) : qunif p a b = nan := by
  rw [qunif]; split
  · rfl
  · rw [if_pos (mt (prob_val_ok_iff p).1 hp)]

theorem C03_qexp {p : Fl} (hp : ¬ Prob p) (rate : Fl) : qexp p rate = nan := by
  rw [qexp]; split
  · rfl
  · rw [if_pos (mt (prob_val_ok_iff p).1 hp)]

theorem C03_qbeta {p : Fl} (hp : ¬ Prob p) (a b : Fl) : qbeta p a b = nan := by
  rw [qbeta]; split
  · rfl
  · rw [if_pos (mt (prob_val_ok_iff p).1 hp)]

theorem C03_qgamma {p : Fl} (hp : ¬ Prob p) (shape scale : Fl) : qgamma p shape scale = nan := by
  rw [qgamma]; split
  · rfl
  · rw [if_pos (mt (prob_val_ok_iff p).1 hp)]

theorem C03_qinvgamma {p : Fl} (hp : ¬ Prob p) (shape rate : Fl) : qinvgamma p shape rate = nan := by
  rw [qinvgamma]; split
  · rfl
  · rw [if_pos (mt (prob_val_ok_iff p).1 hp)]

theorem C03_qinvgauss {p : Fl} (hp : ¬ Prob p) (mu lambda : Fl) : qinvgauss p mu lambda = nan := by
  rw [qinvgauss]; split
  · rfl
  · rw [if_pos (mt (prob_val_ok_iff p).1 hp)]

theorem C03_qchisq {p : Fl} (hp : ¬ Prob p) (dof : Fl) : qchisq p dof = nan := by
  rw [qchisq]; split
  · rfl
  · rw [if_pos (mt (prob_val_ok_iff p).1 hp)]

theorem C03_qf {p : Fl} (hp : ¬ Prob p) (df1 df2 : Fl) : qf p df1 df2 = nan := by
  rw [qf]; split
  · rfl
  · rw [if_pos (mt (prob_val_ok_iff p).1 hp)]

theorem C03_qt {p : Fl} (hp : ¬ Prob p) (dof : Fl) : qt p dof = nan := by
  rw [qt]; split
  · rfl
  · rw [if_pos (mt (prob_val_ok_iff p).1 hp)]

theorem C03_qweibull {p : Fl} (hp : ¬ Prob p) (shape scale : Fl) : qweibull p shape scale = nan := by
  rw [qweibull]; split
  · rfl
  · rw [if_pos (mt (prob_val_ok_iff p).1 hp)]

theorem C03_qbern {p : Fl} (hp : ¬ Prob p) (prob : Fl) : qbern p prob = nan := by
  rw [qbern]; split
  · rfl
  · rw [if_pos (mt (prob_val_ok_iff p).1 hp)]

theorem C03_qradem {p : Fl} (hp : ¬ Prob p) (prob : Fl) : qradem p prob = nan := by
  rw [qradem]; split
  · rfl
  · rw [if_pos (mt (prob_val_ok_iff p).1 hp)]

theorem C03_qbinom {p : Fl} (hp : ¬ Prob p) (n : ℤ) (prob : Fl) : qbinom p n prob = some nan := by
  rw [qbinom]; split
  · rfl
  · rw [if_pos (mt (prob_val_ok_iff p).1 hp)]

theorem C03_qpois {p : Fl} (hp : ¬ Prob p) (rate : Fl) : qpois p rate = some nan := by
  rw [qpois]; split
  · rfl
  · rw [if_pos (mt (prob_val_ok_iff p).1 hp)]

/-! Values that are not probabilities. -/
example : ¬ Prob (fin (-1 / 1000)) := by simp [prob_iff]; norm_num
example : ¬ Prob (fin (1 + 1 / 1000)) := by simp [prob_iff]
example : ¬ Prob pinf := by simp [prob_iff]
example : ¬ Prob ninf := by simp [prob_iff]

end Stats

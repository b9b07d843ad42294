import Verif.Props.C08
import Verif.Props.C09
import Verif.Lemmas.ExactInst

/-!
# C07: the log form is the logarithm of the plain form

Distribution functions: for every library, every rounding and all arguments whatsoever (invalid ones give NaN
twice). Densities: in exact arithmetic, all arguments. `log` is the one of `Verif/Num.lean`: `log 0 = -inf`,
`log (+inf) = +inf`, NaN below 0.
-/

set_option linter.unusedSectionVars false
open Classical
namespace Stats
open Fl Spec

section prob
variable [Lib]

/-- The claim of C07 for a function of `log_form`. -/
def LogForm (f : Bool → Fl) : Prop := f true = log (f false)

theorem C07_pnorm (x mu sigma : Fl) : LogForm (pnorm x mu sigma) := by
  unfold LogForm pnorm; split_ifs <;> simp
theorem C07_plnorm (x mu sigma : Fl) : LogForm (plnorm x mu sigma) := by
  unfold LogForm plnorm; split_ifs <;> try simp
  exact C07_pnorm _ _ _
theorem C07_punif (x a b : Fl) : LogForm (punif x a b) := by
  unfold LogForm punif; split_ifs <;> simp
theorem C07_pexp (x rate : Fl) : LogForm (pexp x rate) := by
  unfold LogForm pexp; split_ifs <;> simp
theorem C07_pcauchy (x mu sigma : Fl) : LogForm (pcauchy x mu sigma) := by
  unfold LogForm pcauchy; split_ifs <;> simp
theorem C07_plaplace (x mu sigma : Fl) : LogForm (plaplace x mu sigma) := by
  unfold LogForm plaplace; split_ifs <;> simp
theorem C07_plogis (x mu sigma : Fl) : LogForm (plogis x mu sigma) := by
  unfold LogForm plogis; split_ifs <;> simp
theorem C07_pbeta (x a b : Fl) : LogForm (pbeta x a b) := by
  unfold LogForm pbeta; split_ifs <;> simp
theorem C07_pgamma (x shape scale : Fl) : LogForm (pgamma x shape scale) := by
  unfold LogForm pgamma; split_ifs <;> simp
theorem C07_pinvgamma (x shape rate : Fl) : LogForm (pinvgamma x shape rate) := by
  unfold LogForm pinvgamma pinvgamma_limit_vals pinvgamma_compute; split_ifs <;> simp
theorem C07_pchisq (x dof : Fl) : LogForm (pchisq x dof) := by
  unfold LogForm pchisq; split_ifs <;> simp
theorem C07_pt (x dof : Fl) : LogForm (pt x dof) := by
  unfold LogForm pt; split_ifs <;> simp
  exact C07_pnorm x (fin 0) (fin 1)
theorem C07_pweibull (x shape scale : Fl) : LogForm (pweibull x shape scale) := by
  unfold LogForm pweibull; split_ifs <;> simp
theorem C07_pinvgauss (x mu lambda : Fl) : LogForm (pinvgauss x mu lambda) := by
  unfold LogForm pinvgauss; split_ifs <;> simp
theorem C07_pbern (x : ℤ) (prob : Fl) : LogForm (pbern x prob) := by
  unfold LogForm pbern; split_ifs <;> simp
theorem C07_pradem (x : ℤ) (prob : Fl) : LogForm (pradem x prob) := by
  unfold LogForm pradem; split_ifs <;> simp
theorem C07_pbinom (x n : ℤ) (prob : Fl) : LogForm (pbinom x n prob) := by
  unfold LogForm pbinom; split_ifs <;> try simp
  exact C07_pbern _ _
theorem C07_ppois (x : ℤ) (rate : Fl) : LogForm (ppois x rate) := by
  unfold LogForm ppois; split_ifs <;> simp

/-- F distribution function. Missing: `df1 = +inf` with `df2` finite, where the claim is false
(`C07_pf_violated`); all finite degrees of freedom are covered. -/
theorem C07_pf_partial (x df1 df2 : Fl) (h : df1 ≠ pinf ∨ df2 = pinf) : LogForm (pf x df1 df2) := by
  unfold LogForm pf pf_limit_vals_dof; split_ifs <;> simp_all
  exact C07_pchisq _ _
example : LogForm (pf (fin 2) (fin 3) pinf) := C07_pf_partial _ _ _ (Or.inl (by simp))

/-- With `df1 = +inf` the log form is `1 - log(..)` instead of `log(1 - ..)` (pf.ipp:54), in every library. -/
theorem C07_pf_violated : ¬ ∀ x df1 df2 : Fl, LogForm (pf x df1 df2) := by
  intro h
  obtain ⟨x, df1, df2, _, hv⟩ := C09_pf_violated
  rw [h x df1 df2] at hv
  exact absurd hv (pn_log (C09_pf_plain x df1 df2))

end prob

section dens
variable [Lib] [Ideal]

@[simp] theorem ilog_exp (y : Fl) : log (exp y) = y := by
  cases y with
  | fin r => rw [iexp, ilog (Real.exp_pos r), Real.log_exp]
  | _ => simp

theorem logForm_exp_if {f : Bool → Fl} {y : Fl} (h : ∀ b, f b = exp_if y (!b)) : LogForm f := by
  simp [LogForm, h]

theorem C07_dnorm (x mu sigma : Fl) : LogForm (dnorm x mu sigma) := by
  unfold LogForm dnorm; split_ifs <;> simp

theorem C07_dcauchy (x mu sigma : Fl) : LogForm (dcauchy x mu sigma) := by
  unfold LogForm dcauchy; split_ifs <;> simp
theorem C07_dlaplace (x mu sigma : Fl) : LogForm (dlaplace x mu sigma) := by
  unfold LogForm dlaplace; split_ifs <;> simp
theorem C07_dlogis (x mu sigma : Fl) : LogForm (dlogis x mu sigma) := by
  unfold LogForm dlogis; split_ifs <;> simp
theorem C07_dbeta (x a b : Fl) : LogForm (dbeta x a b) := by
  unfold LogForm dbeta; split_ifs <;> simp
theorem C07_dgamma (x shape scale : Fl) : LogForm (dgamma x shape scale) := by
  unfold LogForm dgamma; split_ifs <;> simp
theorem C07_dinvgamma (x shape rate : Fl) : LogForm (dinvgamma x shape rate) := by
  unfold LogForm dinvgamma; split_ifs <;> simp
theorem C07_dinvgauss (x mu lambda : Fl) : LogForm (dinvgauss x mu lambda) := by
  unfold LogForm dinvgauss; split_ifs <;> simp
theorem C07_dchisq (x dof : Fl) : LogForm (dchisq x dof) := by
  unfold LogForm dchisq; split_ifs <;> simp
theorem C07_dt (x dof : Fl) : LogForm (dt x dof) := by
  unfold LogForm dt; split_ifs <;> simp
  exact C07_dnorm x (fin 0) (fin 1)
theorem C07_dweibull (x shape scale : Fl) : LogForm (dweibull x shape scale) := by
  unfold LogForm dweibull; split_ifs <;> simp
theorem C07_dbern (x : ℤ) (prob : Fl) : LogForm (dbern x prob) := by
  unfold LogForm dbern; split_ifs <;> simp
theorem C07_dradem (x : ℤ) (prob : Fl) : LogForm (dradem x prob) := by
  unfold LogForm dradem; split_ifs <;> simp
theorem C07_dbinom (x n : ℤ) (prob : Fl) : LogForm (dbinom x n prob) := by
  unfold LogForm dbinom; split_ifs <;> try simp
  exact C07_dbern _ _
theorem C07_dpois (x : ℤ) (rate : Fl) : LogForm (dpois x rate) := by
  unfold LogForm dpois; split_ifs <;> simp

theorem C07_dlnorm (x mu sigma : Fl) : LogForm (dlnorm x mu sigma) := by
  unfold LogForm dlnorm dlnorm_log_check
  split_ifs with h1 h2 h3 <;> simp at *
  have hx : ∃ r, x = fin r ∧ 0 < r := by
    cases x with
    | nan => exact absurd rfl h1.1
    | ninf => simp at h2
    | pinf => simp at h3
    | fin r =>
      refine ⟨r, rfl, ?_⟩
      have : 0 ≤ r := by simpa using h2
      rcases this.eq_or_lt with rfl | h
      · simp at h3
      · exact h
  obtain ⟨r, rfl, hr⟩ := hx
  rw [ilog hr]
  rw [C07_dnorm, dnorm]
  have hn : norm_ok' (fin (Real.log r)) mu sigma := ⟨by simp, h1.2⟩
  rw [ilog hr] at h3
  have hmu : ∃ m, mu = fin m := by
    cases mu with
    | fin m => exact ⟨m, rfl⟩
    | _ => simp_all [lnorm_ok', lnorm_ok]
  have hsg : ∃ m, sigma = fin m ∧ 0 < m := by
    cases sigma with
    | fin m =>
      refine ⟨m, rfl, ?_⟩
      have h4 := h1.2.2
      simp at h3 h4
      exact lt_of_le_of_ne h4 (Ne.symm h3.2)
    | _ => simp_all [lnorm_ok', lnorm_ok]
  obtain ⟨m, rfl⟩ := hmu
  obtain ⟨s, rfl, hs⟩ := hsg
  obtain ⟨hp, ha, hb⟩ := C08_dnorm m hs (Real.log r) trivial
  have : (if ¬ norm_ok' (fin (Real.log r)) (fin m) (fin s) then nan
      else if (isInf (fin (Real.log r)) ∨ isInf (fin m) ∨ isInf (fin s)) ∨ fin s ==. 0 then
        log_if (dnorm_limit_vals (fin (Real.log r)) (fin m) (fin s)) false
      else exp_if (dnorm_log_compute ((fin (Real.log r) - fin m) / fin s) (fin s)) (!false)) =
      dnorm (fin (Real.log r)) (fin m) (fin s) false := rfl
  rw [this]
  simp only at ha
  rw [ha, ilog hp, ifin_sub, ifin_div _ hr.ne', ilog (by positivity), Real.log_div hp.ne' hr.ne']

/-- Uniform density with finite end points, every `x`. Missing: infinite end points, where the log form is 0
(`C07_dunif_violated`). -/
theorem C07_dunif_partial (x : Fl) (a b : ℝ) : LogForm (dunif x (fin a) (fin b)) := by
  unfold LogForm dunif dunif_log_check
  split_ifs with h1 h2 h3 <;> simp at *
  have h4 : a < b := by
    have := h1.2; simp [unif_ok] at this; exact this
  have h5 : 0 < b - a := by linarith
  simp only [ideal, ifin_div _ h5.ne', ilog h5, ilog (one_div_pos.2 h5)]
  rw [one_div, Real.log_inv]

theorem C07_dunif_violated : ¬ ∀ x a b : Fl, LogForm (dunif x a b) := by
  intro h
  have := h (fin 0) ninf (fin 1)
  simp [LogForm, dunif, unif_ok', unif_ok] at this

/-- Exponential density, every rate, `x` other than `+inf`. Missing: `x = +inf`, where the log form is 0
(`C07_dexp_violated`). -/
theorem C07_dexp_partial {x : Fl} (hx : x ≠ pinf) (rate : Fl) : LogForm (dexp x rate) := by
  unfold LogForm dexp; split_ifs <;> simp_all
example : LogForm (dexp (fin 3) (fin 2)) := C07_dexp_partial (by simp) _

theorem C07_dexp_violated : ¬ ∀ (x : Fl) (rate : ℝ), 0 ≤ rate → LogForm (dexp x (fin rate)) := by
  intro h
  have := h pinf 1 zero_le_one
  simp [LogForm, dexp, exp_ok', exp_ok] at this

theorem C07_df (x df1 df2 : Fl) : LogForm (df x df1 df2) := by
  by_cases hf : (∃ r, x = fin r ∧ 0 < r) ∧ (∃ a, df1 = fin a ∧ Lib.eps ≤ a) ∧ (∃ b, df2 = fin b ∧ Lib.eps ≤ b)
  · obtain ⟨⟨r, rfl, hr⟩, ⟨a, rfl, ha⟩, ⟨b, rfl, hb⟩⟩ := hf
    obtain ⟨hp, h1, h2⟩ := C08_df ha hb r hr
    simp only at h1 h2
    rw [LogForm, h1, h2, ilog hp]
  · unfold LogForm df df_limit_vals_dof
    split_ifs with h1 h2 h3 h4 h5 h6 <;> simp
    · exact C07_dinvgamma _ _ _
    · exact C07_dgamma _ _ _
    · exfalso
      apply hf
      have e1 : ∃ r, x = fin r ∧ 0 < r := by
        cases x with
        | fin r =>
          refine ⟨r, rfl, ?_⟩
          simp at h2 h3
          exact lt_of_le_of_ne h2 (Ne.symm h3)
        | _ => simp_all [f_ok']
      refine ⟨e1, ?_, ?_⟩
      · cases df1 <;> simp_all [f_ok', f_ok, eps]
      · cases df2 <;> simp_all [f_ok', f_ok, eps]

end dens
end Stats

namespace Stats.ExamplesC07
open Fl Spec
open scoped Stats.Exact

/-- a value that is neither 0, 1 nor NaN -/
example : dnorm (fin 1) (fin 0) (fin 2) true = log (dnorm (fin 1) (fin 0) (fin 2) false) ∧
    ∃ r, 0 < r ∧ dnorm (fin 1) (fin 0) (fin 2) false = fin r :=
  ⟨C07_dnorm _ _ _, _, (C08_dnorm 0 two_pos 1 trivial).1, (C08_dnorm 0 two_pos 1 trivial).2.1⟩

end Stats.ExamplesC07

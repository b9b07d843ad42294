import Verif.Lemmas.Params
import Verif.Lemmas.Range

/-!
# C06: densities are never negative (every rounding, every library, every argument)

`¬ d < 0` says that the result is NaN or a number in `[0, +inf]`. No hypothesis: the parameters may be
invalid. The F density is in `Verif/Props/C06F.lean`: rounding can make it negative.
-/

set_option linter.unusedSectionVars false
open Classical
namespace Stats
open Fl Spec
variable [Lib]

theorem C06_dnorm (x mu sigma : Fl) : ¬ dnorm x mu sigma false < 0 := by
  rw [dnorm]; split_ifs
  · simp only [log_if_false, dnorm_limit_vals]; split_ifs <;> simp
  · exact nn_exp _
  · simp

theorem C06_dlnorm (x mu sigma : Fl) : ¬ dlnorm x mu sigma false < 0 := by
  rw [dlnorm]; split_ifs with h1 h2
  · simp
  · simp only [log_if_false, dlnorm_limit_vals]; split_ifs <;> simp
  · simp only [dlnorm_log_check]
    exact NN.div (C06_dnorm _ _ _) h2
  · simp

theorem C06_dunif (x a b : Fl) : ¬ dunif x a b false < 0 := by
  rw [dunif]; split_ifs with h1 h2 h3
  · simp
  · simp
  · simp only [dunif_log_check]
    have : NN (b - a) := by
      have h : a < b := (ends_iff a b).1 ((unif_ok_iff a b).1 h1.2)
      cases a <;> cases b <;> simp_all
      rw [fin_sub_fin]
      exact nn_ofE (rnd_nonneg (by linarith))
    exact NN.div (by simp [NN]) this
  · simp

theorem C06_dexp (x rate : Fl) : ¬ dexp x rate false < 0 := by
  rw [dexp]; split_ifs
  · simp
  · simp
  · simp
  · simp
  · exact nn_exp _
  · simp

theorem C06_dcauchy (x mu sigma : Fl) : ¬ dcauchy x mu sigma false < 0 := by
  rw [dcauchy]; split_ifs with h1
  · simp only [log_if_false, dcauchy_limit_vals]; split_ifs <;> simp
  · simp only [log_if_false, dcauchy_compute]
    have hs : NN sigma := h1.2.2
    have h1 : NN (1 : Fl) := by simp [NN]
    exact h1.div ((hs.mul (nn_fin Lib.pi_pos.le)).mul (h1.add (nn_sq _)))
  · simp

theorem C06_dlaplace (x mu sigma : Fl) : ¬ dlaplace x mu sigma false < 0 := by
  rw [dlaplace]; split_ifs
  · simp only [log_if_false, dlaplace_limit_vals]; split_ifs <;> simp
  · exact nn_exp _
  · simp

theorem C06_dlogis (x mu sigma : Fl) : ¬ dlogis x mu sigma false < 0 := by
  rw [dlogis]; split_ifs
  · simp only [log_if_false, dlogis_limit_vals]; split_ifs <;> simp
  · exact nn_exp _
  · simp

theorem C06_dbeta (x a b : Fl) : ¬ dbeta x a b false < 0 := by
  rw [dbeta]; split_ifs with h1
  all_goals try simp
  · simp only [dbeta_limit_vals]; split_ifs <;> simp
  · simpa using h1.2.2.2
  · simpa using h1.2.2.1
  · simpa [NN] using nn_exp _

theorem C06_dgamma (x shape scale : Fl) : ¬ dgamma x shape scale false < 0 := by
  rw [dgamma]; split_ifs with h1
  all_goals try simp
  · simp only [dgamma_limit_vals]; split_ifs <;> try simp
    have hs : NN scale := by
      have h := h1.2
      rw [gamma_ok_iff, atLeast_iff] at h
      have h2 := h.2.2
      have := Lib.eps_pos
      cases scale <;> simp_all [NN]
      linarith
    simpa [NN] using NN.div (x := fin 1) (by simp [NN]) hs
  · simpa [NN] using nn_exp _

theorem C06_dinvgamma (x shape rate : Fl) : ¬ dinvgamma x shape rate false < 0 := by
  rw [dinvgamma]; split_ifs with h1
  all_goals try simp
  · simp only [dinvgamma_limit_vals]; split_ifs <;> simp
  · simpa [NN] using nn_exp _

theorem C06_dinvgauss (x mu lambda : Fl) : ¬ dinvgauss x mu lambda false < 0 := by
  rw [dinvgauss]; split_ifs with h1
  all_goals try simp
  · simp only [dinvgauss_limit_vals]; split_ifs <;> simp
  · simpa [NN] using nn_exp _

theorem C06_dchisq (x dof : Fl) : ¬ dchisq x dof false < 0 := by
  rw [dchisq]; split_ifs with h1
  all_goals try simp
  · simp only [dchisq_limit_vals]; split_ifs <;> simp
  · simpa [NN] using nn_exp _

theorem C06_dt (x dof : Fl) : ¬ dt x dof false < 0 := by
  rw [dt]; split_ifs with h1
  all_goals try simp
  · simpa using C06_dnorm x 0 1
  · simpa [NN] using nn_exp _

theorem C06_dweibull (x shape scale : Fl) : ¬ dweibull x shape scale false < 0 := by
  rw [dweibull]; split_ifs with h1
  all_goals try simp
  simpa [NN] using nn_exp _

theorem nn_one_sub_prob {p : Fl} (h : Prob p) : NN (1 - p) := by
  obtain ⟨r, h0, h1, rfl⟩ := h
  obtain ⟨q, hq, hq0, _⟩ := (btw_fin h0 h1).one_sub
  rw [hq]; exact nn_fin hq0

theorem C06_dbern (x : ℤ) (prob : Fl) : ¬ dbern x prob false < 0 := by
  rw [dbern]; split_ifs with h1
  · have hp := (bern_ok_iff prob).1 h1
    simp only [log_if_false, dbern_compute]; split_ifs
    · exact h1.2.2.1
    · exact nn_one_sub_prob hp
    · simp
  · simp

theorem C06_dradem (x : ℤ) (prob : Fl) : ¬ dradem x prob false < 0 := by
  rw [dradem]; split_ifs with h1
  · have hp := (radem_ok_iff prob).1 h1
    simp only [log_if_false, dradem_compute]; split_ifs
    · exact h1.2.2.1
    · exact nn_one_sub_prob hp
    · simp
  · simp

theorem C06_dbinom (x n : ℤ) (prob : Fl) : ¬ dbinom x n prob false < 0 := by
  rw [dbinom]; split_ifs with h1
  all_goals try simp
  · simp only [dbinom_limit_vals]; split_ifs <;> simp
  · simpa using C06_dbern x prob
  · simpa [NN] using nn_exp _

theorem C06_dpois (x : ℤ) (rate : Fl) : ¬ dpois x rate false < 0 := by
  rw [dpois]; split_ifs with h1
  all_goals try simp
  simpa [NN] using nn_exp _

end Stats

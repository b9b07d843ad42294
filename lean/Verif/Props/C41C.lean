import Verif.Props.C41B
import Verif.Lemmas.Meets

/-!
# C41 for the remaining families

Gamma with shape 0, inverse gamma with rate 0, chi-square without degrees of freedom, inverse Gaussian with mean or shape
0, exponential with infinite rate, Weibull with infinite shape: a point mass. Poisson with rate 0 and Bernoulli,
Rademacher and binomial with probability 0 or 1: a sure outcome.
-/

set_option linter.unusedSectionVars false
open Classical
namespace Stats
open Fl Spec
variable [Lib]

/-! ### gamma, shape 0 -/

theorem C41_qgamma {scale : ℝ} (hs : Lib.eps ≤ scale) : IsConstQuantIn (fun p => qgamma p (fin 0) (fin scale)) 0 := by
  intro u h0 h1
  simp [qgamma, gamma_ok, eps, hs, prob_ok_fin h0.le h1.le, h0.ne', h1.ne, qgamma_limit_vals]
example : IsConstQuantIn (fun p => qgamma p (fin 0) (fin 2)) 0 := C41_qgamma (scale := 2) (hs := by meets)

/-! ### inverse gamma, rate 0 -/

theorem C41_dinvgamma {shape : ℝ} (hs : 0 < shape) : IsSpike (fun x => dinvgamma x (fin shape) (fin 0)) 0 := by
  refine ⟨⟨?_, ?_⟩, fun x hx hm => ?_⟩
  · simp [dinvgamma, invgamma_ok', invgamma_ok, dinvgamma_limit_vals, hs.le, hs.ne']
  · simp [dinvgamma, invgamma_ok', invgamma_ok, dinvgamma_limit_vals, hs.le, hs.ne']
  · by_cases hx0 : x < 0
    · constructor <;> simp [dinvgamma, invgamma_ok', invgamma_ok, hs.le] <;> simp_all
    · constructor <;> cases x <;> simp_all [dinvgamma, invgamma_ok', invgamma_ok, hs.le, hs.ne']
example : IsSpike (fun x => dinvgamma x (fin 3) (fin 0)) 0 := C41_dinvgamma (shape := 3) (hs := by meets)

/-- missing: `x = 0`, see `C41_pinvgamma_violated` -/
theorem C41_pinvgamma_partial [Ideal] {shape : ℝ} (hs : 0 < shape) :
    IsStepOn (fun x => x ≠ 0) (fun x => pinvgamma x (fin shape) (fin 0)) 0 := by
  intro x hx
  refine ⟨fun h => ?_, fun h => ?_⟩
  · constructor <;> simp [pinvgamma, invgamma_ok', invgamma_ok, hs.le, h]
  · have h0 : 0 < x := lt_of_le_of_ne h (Ne.symm hx)
    have hp : pgamma (fin (1 / x)) (fin shape) pinf false = fin 0 := by
      by_cases hc : 1 / x < Lib.eps
      · simp [pgamma, gamma_ok', gamma_ok, eps, hs.le, -one_div, hc]
      · simp [pgamma, gamma_ok', gamma_ok, eps, hs.le, hs.ne', -one_div, hc, pgamma_limit_vals]
    have : pinvgamma (fin x) (fin shape) (fin 0) = log_if (fin 1) := by
      funext b
      simp [pinvgamma, invgamma_ok', invgamma_ok, hs.le, not_lt.2 h, hx, pinvgamma_limit_vals, pinvgamma_compute, one_eq,
        ifin_div _ hx, -one_div, hp, ifin_sub]
    simp only [this]; exact one_log_if

/-- at the atom the distribution function is NaN -/
theorem C41_pinvgamma_violated {shape : ℝ} (hs : 0 < shape) (b : Bool) :
    pinvgamma (fin 0) (fin shape) (fin 0) b = nan := by
  cases b <;> simp [pinvgamma, invgamma_ok', invgamma_ok, hs.le, pinvgamma_limit_vals, pinvgamma_compute, pgamma, gamma_ok',
    gamma_ok, eps]
example : pinvgamma (fin 0) (fin 3) (fin 0) true = nan :=
  C41_pinvgamma_violated (shape := 3) (hs := by meets) (b := true)

theorem C41_qinvgamma {shape : ℝ} (hs : 0 < shape) : IsConstQuantIn (fun p => qinvgamma p (fin shape) (fin 0)) 0 := by
  intro u h0 h1
  simp [qinvgamma, invgamma_ok, hs.le, hs.ne', prob_ok_fin h0.le h1.le, h0.ne', h1.ne, qinvgamma_limit_vals]
example : IsConstQuantIn (fun p => qinvgamma p (fin 3) (fin 0)) 0 := C41_qinvgamma (shape := 3) (hs := by meets)

/-! ### chi-square, no degrees of freedom -/

theorem C41_dchisq [Ideal] : IsSpike (fun x => dchisq x (fin 0)) 0 := by
  refine ⟨⟨?_, ?_⟩, fun x hx hm => ?_⟩
  · simp [dchisq, chisq_ok', chisq_ok, dchisq_limit_vals]
  · simp [dchisq, chisq_ok', chisq_ok, dchisq_limit_vals]
  · have hl : lgamma (fin 0) = pinf := by rw [lgamma, Ideal.lgamma_zero]; rfl
    cases x with
    | nan => exact absurd rfl hx
    | ninf => constructor <;> simp [dchisq, chisq_ok', chisq_ok]
    | pinf => constructor <;> simp [dchisq, chisq_ok', chisq_ok]
    | fin r =>
      have hr : r ≠ 0 := fun h => hm (by rw [h])
      rcases lt_or_gt_of_ne hr with h | h
      · constructor <;> simp [dchisq, chisq_ok', chisq_ok, h]
      · have e : dchisq_compute (fin r) (fin 0) = ninf := by
          rw [dchisq_compute]
          simp [half, ideal, ilog h, hl, one_eq, -one_div]
        constructor <;> simp [dchisq, chisq_ok', chisq_ok, hr, not_lt.2 h.le, e, exp_if]

/-- missing: `0 ≤ x < eps`, see `C41_pchisq_violated` -/
theorem C41_pchisq_partial : IsStepOn (fun x => x < 0 ∨ Lib.eps ≤ x) (fun x => pchisq x (fin 0)) 0 := by
  have he := Lib.eps_pos
  intro x hx
  refine ⟨fun h => ?_, fun h => ?_⟩
  · have : x < Lib.eps := by linarith
    constructor <;> simp [pchisq, chisq_ok', chisq_ok, eps, this]
  · have hx' : Lib.eps ≤ x := hx.resolve_left (not_lt.2 h)
    constructor <;> simp [pchisq, chisq_ok', chisq_ok, eps, hx']

theorem C41_pchisq_violated : pchisq (fin 0) (fin 0) false = fin 0 := by
  simp [pchisq, chisq_ok', chisq_ok, eps, Lib.eps_pos]

/-! ### inverse Gaussian, mean or shape 0 -/

theorem C41_dinvgauss_zero {mu : ℝ} (h : 0 ≤ mu) : IsSpike (fun x => dinvgauss x (fin mu) (fin 0)) 0 := by
  refine ⟨⟨?_, ?_⟩, fun x hx hm => ?_⟩
  · simp [dinvgauss, invgauss_ok', invgauss_ok, dinvgauss_limit_vals, h]
  · simp [dinvgauss, invgauss_ok', invgauss_ok, dinvgauss_limit_vals, h]
  · by_cases hx0 : x < 0
    · constructor <;> simp [dinvgauss, invgauss_ok', invgauss_ok, h] <;> simp_all
    · have : dinvgauss x (fin mu) (fin 0) = log_if (fin 0) := by
        funext b
        cases x <;> simp_all [dinvgauss, invgauss_ok', invgauss_ok, dinvgauss_limit_vals]
      simp only [this]; exact vanishes_log_if
example : IsSpike (fun x => dinvgauss x (fin 3) (fin 0)) 0 := C41_dinvgauss_zero (mu := 3) (h := by meets)

theorem C41_pinvgauss_zero {mu lambda : ℝ} (h : 0 ≤ mu) (hl : 0 ≤ lambda) (h0 : mu = 0 ∨ lambda = 0) :
    IsStep (fun x => pinvgauss x (fin mu) (fin lambda)) 0 := by
  refine ⟨fun x _ => ⟨fun hx => ?_, fun hx => ?_⟩, ?_, ?_⟩
  · constructor <;> simp [pinvgauss, invgauss_ok', invgauss_ok, h, hl, hx]
  · have : pinvgauss (fin x) (fin mu) (fin lambda) = log_if (fin 1) := by
      funext b
      rcases h0 with h0 | h0 <;> by_cases hl0 : lambda = 0 <;> by_cases hx0 : x = 0 <;>
        simp [h0, hx0, pinvgauss, invgauss_ok', invgauss_ok, pinvgauss_limit_vals, h, hl, not_lt.2 hx, hl0]
    simp only [this]; exact one_log_if
  · constructor <;> simp [pinvgauss, invgauss_ok', invgauss_ok, h, hl]
  · have : pinvgauss pinf (fin mu) (fin lambda) = log_if (fin 1) := by
      funext b
      simp [pinvgauss, invgauss_ok', invgauss_ok, pinvgauss_limit_vals, h, hl]
    simp only [this]; exact one_log_if
example : IsStep (fun x => pinvgauss x (fin 3) (fin 0)) 0 :=
  C41_pinvgauss_zero (mu := 3) (lambda := 0) (h := by meets) (hl := by meets) (h0 := by meets)

theorem C41_qinvgauss_zero {mu : ℝ} (h : 0 < mu) : IsConstQuantIn (fun p => qinvgauss p (fin mu) (fin 0)) 0 := by
  intro u h0 h1
  simp [qinvgauss, invgauss_ok, h.le, h.ne', prob_ok_fin h0.le h1.le, h1.ne]
example : IsConstQuantIn (fun p => qinvgauss p (fin 3) (fin 0)) 0 := C41_qinvgauss_zero (mu := 3) (h := by meets)

/-- with mean 0 the quantile is NaN -/
theorem C41_qinvgauss_violated {lambda : ℝ} (h : 0 ≤ lambda) {u : ℝ} (h0 : 0 ≤ u) (h1 : u ≤ 1) :
    qinvgauss (fin u) (fin 0) (fin lambda) = nan := by
  simp [qinvgauss, invgauss_ok, h, prob_ok_fin h0 h1]
example : qinvgauss (fin (1 / 3)) (fin 0) (fin 2) = nan :=
  C41_qinvgauss_violated (lambda := 2) (h := by meets) (u := 1 / 3) (h0 := by meets) (h1 := by meets)

/-! ### exponential, infinite rate -/

/-- missing: the atom itself, see `C41_pexp_violated` -/
theorem C41_pexp_partial : IsStepOn (fun x => x ≠ 0) (fun x => pexp x pinf) 0 := by
  intro x hx
  refine ⟨fun h => ?_, fun h => ?_⟩
  · have : pexp (fin x) pinf = log_if (fin 0) := by
      funext b; simp [pexp, exp_ok', exp_ok, pexp_compute, h.le]
    simp only [this]; exact vanishes_log_if
  · have h0 : 0 < x := lt_of_le_of_ne h (Ne.symm hx)
    have : pexp (fin x) pinf = log_if (fin 1) := by
      funext b; simp [pexp, exp_ok', exp_ok, pexp_compute, not_le.2 h0]
    simp only [this]; exact one_log_if

theorem C41_pexp_violated : pexp (fin 0) pinf false = fin 0 := by
  simp [pexp, exp_ok', exp_ok, pexp_compute, log_if]

/-- the density is NaN everywhere -/
theorem C41_dexp_violated (x : Fl) (b : Bool) : dexp x pinf b = nan := by
  by_cases h : exp_ok' x pinf <;> simp [dexp, h]

theorem C41_qexp [Ideal] : IsConstQuantIn (fun p => qexp p pinf) 0 := by
  intro u h0 h1
  simp [qexp, exp_ok, prob_ok_fin h0.le h1.le, h0.ne', h1.ne, qexp_compute, one_eq, ideal, ilog (show (0:ℝ) < 1 - u by linarith)]

/-! ### Weibull, infinite shape -/

/-- missing: the atom itself, see `C41_pweibull_violated` -/
theorem C41_pweibull_partial [Ideal] {scale : ℝ} (hs : Lib.eps ≤ scale) :
    IsStepOn (fun x => x ≠ scale) (fun x => pweibull x pinf (fin scale)) scale := by
  have he := Lib.eps_pos
  have hs0 : 0 < scale := lt_of_lt_of_le he hs
  intro x hx
  refine ⟨fun h => ?_, fun h => ?_⟩
  · by_cases hxe : x < Lib.eps
    · constructor <;> simp [pweibull, weibull_ok', weibull_ok, eps, hs, hxe]
    · have h1 : x / scale < 1 := (div_lt_one hs0).2 h
      have : pweibull (fin x) pinf (fin scale) = log_if (fin 0) := by
        funext b
        simp [pweibull, weibull_ok', weibull_ok, eps, hs, hxe, pweibull_limit_vals, ifin_div _ hs0.ne', one_eq,
          not_lt.2 h1.le, h1.ne]
      simp only [this]; exact vanishes_log_if
  · have h' : scale < x := lt_of_le_of_ne h (Ne.symm hx)
    have hxe : ¬ x < Lib.eps := by linarith
    have h1 : 1 < x / scale := (one_lt_div hs0).2 h'
    have : pweibull (fin x) pinf (fin scale) = log_if (fin 1) := by
      funext b
      simp [pweibull, weibull_ok', weibull_ok, eps, hs, hxe, pweibull_limit_vals, ifin_div _ hs0.ne', one_eq, h1]
    simp only [this]; exact one_log_if

/-- at the atom the distribution function is 1 - 1/e -/
theorem C41_pweibull_violated [Ideal] {scale : ℝ} (hs : Lib.eps ≤ scale) :
    pweibull (fin scale) pinf (fin scale) false = fin (1 - Real.exp (-1)) := by
  have he := Lib.eps_pos
  have hs0 : 0 < scale := lt_of_lt_of_le he hs
  simp [pweibull, weibull_ok', weibull_ok, eps, pweibull_limit_vals, ifin_div _ hs0.ne', one_eq, log_if, ideal, not_lt.2 hs,
    hs0.ne']

theorem C41_qweibull {scale : ℝ} (hs : Lib.eps ≤ scale) :
    IsConstQuantIn (fun p => qweibull p pinf (fin scale)) scale := by
  intro u h0 h1
  simp [qweibull, weibull_ok, eps, hs, prob_ok_fin h0.le h1.le, h0.ne', h1.ne]
example : IsConstQuantIn (fun p => qweibull p pinf (fin 2)) 2 := C41_qweibull (scale := 2) (hs := by meets)

/-! ### Poisson, rate 0 -/

theorem ppois_tail_zero [Ideal] (k : ℕ) : ∀ r, 0 < r → ppois_compute_recur_tail (fin 0) k r = fin 0 := by
  induction k with
  | zero =>
    intro r hr
    have : (r.factorial : ℝ) ≠ 0 := by exact_mod_cast r.factorial_ne_zero
    simp [ppois_compute_recur_tail, ideal, ifin_div _ this, hr.ne']
  | succ k ih =>
    intro r hr
    have : (r.factorial : ℝ) ≠ 0 := by exact_mod_cast r.factorial_ne_zero
    rw [ppois_compute_recur_tail, ih _ (Nat.succ_pos r)]
    simp [ideal, ifin_div _ this, hr.ne']

theorem C41_ppois [Ideal] (x : ℤ) : (x < 0 → VanishesAt (ppois x (fin 0))) ∧ (0 ≤ x → OneAt (ppois x (fin 0))) := by
  refine ⟨fun h => ?_, fun h => ?_⟩
  · constructor <;> simp [ppois, pois_ok, h]
  · have hc : ppois_compute x (fin 0) = fin 1 := by
      rw [ppois_compute]
      split_ifs with h1
      · have hx : (0:ℝ) < ((x + 1 : ℤ) : ℝ) := by exact_mod_cast (by omega)
        rw [ofInt_eq, iigamma hx le_rfl, Spec.gammaP]
        simp [one_eq, ideal]
      · have : ppois_compute_recur x (fin 0) = fin 1 := by
          rw [ppois_compute_recur]
          split_ifs with h2 h3
          · exact one_eq
          · simp [one_eq, ideal]
          · rw [ppois_tail_zero _ 1 one_pos]; simp [one_eq, ideal]
        rw [this]; simp [ideal]
    have : ppois x (fin 0) = log_if (fin 1) := by
      funext b; simp [ppois, pois_ok, not_lt.2 h, hc]
    rw [this]; exact one_log_if

theorem C41_qpois {u : ℝ} (h0 : 0 ≤ u) (h1 : u ≤ 1) : qpois (fin u) (fin 0) = some (fin 0) := by
  simp [qpois, pois_ok, prob_ok_fin h0 h1, eps, Lib.eps_pos]
example : qpois (fin (1 / 3)) (fin 0) = some (fin 0) := C41_qpois (u := 1 / 3) (h0 := by meets) (h1 := by meets)

theorem C41_rpois {S : Type*} [Engine S] [NextLib] (s : S) : ∃ s', rpois (fin 0) s = some (fin 0, s') := by
  obtain ⟨u, hu, h0, h1⟩ := runif_mem s
  exact ⟨(runif 0 1 s).2, by simp [rpois, pois_ok, hu, C41_qpois h0.le h1.le]⟩

/-! ### Bernoulli and Rademacher, probability 0 or 1 -/

theorem C41_dbern [Ideal] (x : ℤ) (k : ℤ) (hk : k = 0 ∨ k = 1) :
    (x = k → OneAt (dbern x (fin k))) ∧ (x ≠ k → VanishesAt (dbern x (fin k))) := by
  refine ⟨fun h => ?_, fun h => ?_⟩
  · have : dbern x (fin k) = log_if (fin 1) := by
      funext b
      rcases hk with rfl | rfl <;> subst h <;> simp [dbern, bern_ok, dbern_compute, one_eq, ideal]
    rw [this]; exact one_log_if
  · have : dbern x (fin k) = log_if (fin 0) := by
      funext b
      rcases hk with rfl | rfl <;> simp [dbern, bern_ok, dbern_compute, one_eq, ideal, h]
    rw [this]; exact vanishes_log_if

theorem C41_pbern [Ideal] (x : ℤ) (k : ℤ) (hk : k = 0 ∨ k = 1) :
    (x < k → VanishesAt (pbern x (fin k))) ∧ (k ≤ x → OneAt (pbern x (fin k))) := by
  refine ⟨fun h => ?_, fun h => ?_⟩
  · have : pbern x (fin k) = log_if (fin 0) := by
      funext b
      rcases hk with rfl | rfl
      · simp [pbern, bern_ok, pbern_compute, h]
      · simp [pbern, bern_ok, pbern_compute, one_eq, ideal, not_le.2 h]
    rw [this]; exact vanishes_log_if
  · have : pbern x (fin k) = log_if (fin 1) := by
      funext b
      rcases hk with rfl | rfl
      · simp [pbern, bern_ok, pbern_compute, one_eq, ideal, not_lt.2 h]
      · simp [pbern, bern_ok, pbern_compute, one_eq, ideal, h, show ¬ x < 0 by omega]
    rw [this]; exact one_log_if

theorem C41_qbern [Ideal] (k : ℤ) (hk : k = 0 ∨ k = 1) : IsConstQuantIn (fun p => qbern p (fin k)) k := by
  intro u h0 h1
  rcases hk with rfl | rfl
  · simp [qbern, bern_ok, prob_ok_fin h0.le h1.le, one_eq, ideal, not_lt.2 h1.le]
  · simp [qbern, bern_ok, prob_ok_fin h0.le h1.le, one_eq, ideal, h0]

theorem C41_rbern {S : Type*} [Engine S] [NextLib] (k : ℤ) (hk : k = 0 ∨ k = 1) (s : S) :
    (rbern (fin k) s).1 = fin k := by
  obtain ⟨u, hu, h0, h1⟩ := runif_mem s
  rcases hk with rfl | rfl
  · simp [rbern, bern_ok, hu, not_le.2 h0]
  · simp [rbern, bern_ok, hu, h1.le]

theorem C41_rradem {S : Type*} [Engine S] [NextLib] (s : S) :
    (rradem (fin 0) s).1 = -1 ∧ (rradem (fin 1) s).1 = 1 := by
  obtain ⟨u, hu, h0, h1⟩ := runif_mem s
  exact ⟨by simp [rradem, radem_ok, hu, not_le.2 h0], by simp [rradem, radem_ok, hu, h1.le]⟩

end Stats

namespace Stats.ExamplesC41C
open Fl Spec
open scoped Stats.Exact

example : qgamma (fin (1 / 4)) (fin 0) (fin 3) = fin 0 := C41_qgamma (Exact.eps_le (by norm_num)) (1 / 4) (by norm_num) (by norm_num)
example : VanishesAt (dinvgamma (fin 3) (fin 2) (fin 0)) :=
  (C41_dinvgamma (by norm_num : (0:ℝ) < 2)).2 _ (by simp) (by simp)
example : OneAt (pinvgamma (fin 3) (fin 2) (fin 0)) := (C41_pinvgamma_partial (by norm_num) 3 (by norm_num)).2 (by norm_num)
example : VanishesAt (pweibull (fin 3) pinf (fin 4)) :=
  (C41_pweibull_partial (scale := 4) (Exact.eps_le (by norm_num)) 3 (by norm_num)).1 (by norm_num)
example : OneAt (pinvgauss (fin 5) (fin 0) (fin 2)) := ((C41_pinvgauss_zero le_rfl (by norm_num) (Or.inl rfl)).1 5 trivial).2 (by norm_num)
example : OneAt (ppois 20 (fin 0)) := (C41_ppois 20).2 (by norm_num)
example (s : Stream) : (rbern (fin (1:ℤ)) s).1 = fin (1:ℤ) := C41_rbern 1 (Or.inr rfl) s
example : OneAt (pbern 1 (fin (1:ℤ))) := (C41_pbern 1 1 (Or.inr rfl)).2 le_rfl

end Stats.ExamplesC41C

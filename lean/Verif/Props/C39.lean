import Verif.Props.C08
import Verif.Props.C08D
import Verif.Props.C17
import Verif.Props.C18
import Verif.Props.C42
import Verif.Props.C16D
import Verif.Lemmas.Meets

/-!
# C39: relations between distributions

The first section holds in every arithmetic; the rest in exact arithmetic. The relations between coded
functions fail only where one of the two cuts its argument at `eps` (`_violated`).
-/

set_option linter.unusedSectionVars false
set_option linter.unusedSimpArgs false
open Classical
namespace Stats
open Fl Spec

section anyArith
variable [Lib]

theorem not_two_lt_eps : ¬ eps > (2 : Fl) := by
  have h : Lib.eps ≤ (2 : ℝ) := Lib.eps_le.trans (by norm_num)
  simp [eps, ← one_div, h, ofNat_eq]

/-- Every arithmetic, every argument; the halved number of degrees of freedom must not underflow. -/
theorem C39_pchisq_gamma {k m : ℝ} (hk : 0 < k) (hm : 0 < m) (h : fin k / 2 = fin m) (x : Fl) (b : Bool) :
    pchisq x (fin k) b = pgamma x (fin k / 2) 2 b := by
  have h2 : Lib.eps ≤ (2 : ℝ) := Lib.eps_le.trans (by norm_num)
  have hc : ∀ x : Fl, pgamma_compute x (fin m) (fin 2) = pchisq_compute x (fin k) := fun x => by
    rw [pgamma_compute, pchisq_compute, h, ofNat_eq]
  have h1 : log_if (fin 1) b = log_one_if b := by
    cases b <;> simp [log_if, log_one_if, log, Lib.log_one]
  rw [h]
  cases x <;> simp [pchisq, pgamma, chisq_ok', chisq_ok, gamma_ok', gamma_ok, eps, hc, ofNat_eq, h2, hk.ne', hm.ne',
    not_lt.2 hk.le, not_lt.2 hm.le, pgamma_limit_vals, h1]

/-- The same for the quantile. -/
theorem C39_qchisq_gamma {k m : ℝ} (hk : 0 < k) (hm : 0 < m) (h : fin k / 2 = fin m) (p : Fl) :
    qchisq p (fin k) = qgamma p (fin k / 2) 2 := by
  have h2 : Lib.eps ≤ (2 : ℝ) := Lib.eps_le.trans (by norm_num)
  have hc : ∀ x : Fl, qgamma_compute x (fin m) (fin 2) = qchisq_compute x (fin k) := fun x => by
    rw [qgamma_compute, qchisq_compute, h, ofNat_eq]
  rw [h]
  simp [qchisq, qgamma, chisq_ok, gamma_ok, eps, hc, ofNat_eq, h2, hm.ne', not_lt.2 hk.le, not_lt.2 hm.le]

end anyArith
variable [Lib] [Ideal]

theorem same_of {d e : Fl → Bool → Fl} {f g : ℝ → ℝ} {s : Set ℝ} (hd : IsDensityOn d f s)
    (he : IsDensityOn e g s) (h : ∀ x ∈ s, f x = g x) {x : ℝ} (hx : x ∈ s) (b : Bool) :
    d (fin x) b = e (fin x) b := by
  obtain ⟨-, h1, h2⟩ := hd x hx
  obtain ⟨-, h3, h4⟩ := he x hx
  cases b
  · rw [h1, h3, h x hx]
  · rw [h2, h4, h x hx]

/-! ### Chi-squared is gamma -/

theorem chisqPdf_eq_gamma (k x : ℝ) : chisqPdf k x = gammaPdf (k / 2) 2 x := rfl

theorem C39_dchisq_gamma {k : ℝ} (hk : 0 < k) (x : Fl) (b : Bool) :
    dchisq x (fin k) b = dgamma x (fin k / 2) 2 b := by
  have e2 : (fin k / 2 : Fl) = fin (k / 2) := by rw [ofNat_eq]; exact ifin_div _ (by norm_num)
  have h0 : ¬ k < 0 := by linarith
  have h1 : ¬ k / 2 < 0 := by linarith
  have h2 : Lib.eps ≤ (2 : ℝ) := Lib.eps_le.trans (by norm_num)
  have h3 : ¬ k / 2 = 0 := by linarith
  rw [e2, ofNat_eq]
  cases x with
  | nan => simp [dchisq, dgamma, chisq_ok', gamma_ok']
  | ninf => simp [dchisq, dgamma, chisq_ok', gamma_ok', chisq_ok, gamma_ok, h0, h1, eps, h2]
  | pinf => simp [dchisq, dgamma, chisq_ok', gamma_ok', chisq_ok, gamma_ok, h0, h1, eps, h2, h3]
  | fin x =>
    rcases lt_trichotomy x 0 with hx | rfl | hx
    · simp [dchisq, dgamma, chisq_ok', gamma_ok', chisq_ok, gamma_ok, h0, h1, eps, h2, hx]
    · have a : k / 2 < 1 ↔ k < 2 := by constructor <;> intro <;> linarith
      have c : k / 2 = 1 ↔ k = 2 := by constructor <;> intro <;> linarith
      have d : fin 1 / fin 2 = fin 2⁻¹ := by rw [ifin_div _ (by norm_num), one_div]
      simp [dchisq, dgamma, chisq_ok', gamma_ok', chisq_ok, gamma_ok, h0, h1, eps, h2, dgamma_limit_vals,
        dchisq_limit_vals, h3, a, c, ofNat_eq, d]
    · exact same_of (C08_dchisq hk) (C08_dgamma (half_pos hk) h2) (fun _ _ => rfl) (Set.mem_Ioi.2 hx) b
example : dchisq (fin (1 / 2)) (fin 2) true = dgamma (fin (1 / 2)) (fin 2 / 2) 2 true :=
  C39_dchisq_gamma (k := 2) (hk := by meets) (x := fin (1 / 2)) (b := true)

/-! ### Exponential is gamma with shape 1 and Weibull with shape 1 -/

theorem exp_scale {r : ℝ} (hr : 0 < r) (x : ℝ) : -x / (1 / r) = -r * x := by field_simp

theorem dexp_Ioi {r : ℝ} (hr : 0 < r) : IsDensityOn (fun x => dexp x (fin r)) (expPdf r) (Set.Ioi 0) :=
  fun x hx => C08_dexp hr x (Set.mem_Ici.2 (Set.mem_Ioi.1 hx).le)

theorem gammaP_one {z : ℝ} (hz : 0 ≤ z) : gammaP 1 z = 1 - Real.exp (-z) := by
  have := gammaP_nat 0 hz
  simpa using this

theorem C39_dexp_gamma {r : ℝ} (hr : 0 < r) (h : Lib.eps ≤ 1 / r) (x : ℝ) (b : Bool) :
    dexp (fin x) (fin r) b = dgamma (fin x) 1 (1 / fin r) b := by
  have e : (1 / fin r : Fl) = fin (1 / r) := by rw [one_eq]; exact ifin_div _ hr.ne'
  rw [e, one_eq]
  rcases lt_trichotomy x 0 with hx | rfl | hx
  · simp [dexp, dgamma, exp_ok', exp_ok, gamma_ok', gamma_ok, hx, not_lt.2 hr.le, eps, ← one_div, h]
  · have hl := ilog hr
    have hrr : fin 1 / fin (1 / r) = fin r := by rw [ifin_div _ (by positivity)]; simp
    cases b <;> simp [dexp, dgamma, exp_ok', exp_ok, gamma_ok', gamma_ok, not_lt.2 hr.le, eps, ← one_div, h,
      dgamma_limit_vals, hrr, dexp_log_compute, exp_if, ideal, hl, Real.exp_log hr]
  · refine same_of (dexp_Ioi hr) (C08_dgamma one_pos h)
      (s := Set.Ioi 0) (fun x hx => ?_) (Set.mem_Ioi.2 hx) b
    have hx : 0 < x := hx
    rw [expPdf, gammaPdf, if_pos hx.le, if_pos hx, exp_scale hr, sub_self, Real.rpow_zero, Real.rpow_one,
      Real.Gamma_one]
    field_simp
example : dexp (fin (1 / 2)) (fin 2) true = dgamma (fin (1 / 2)) 1 (1 / fin 2) true :=
  C39_dexp_gamma (r := 2) (hr := by meets) (h := by meets) (x := 1 / 2) (b := true)

/-- missing: `x = 0`, where `dweibull` is NaN (`C39_dexp_weibull_violated`) -/
theorem C39_dexp_weibull_partial {r : ℝ} (hr : 0 < r) (h : Lib.eps ≤ 1 / r) {x : ℝ} (hx : x ≠ 0) (b : Bool) :
    dexp (fin x) (fin r) b = dweibull (fin x) 1 (1 / fin r) b := by
  have e : (1 / fin r : Fl) = fin (1 / r) := by rw [one_eq]; exact ifin_div _ hr.ne'
  rw [e, one_eq]
  rcases lt_or_gt_of_ne hx with hx | hx
  · have h1 : Lib.eps ≤ (1 : ℝ) := Lib.eps_le.trans (by norm_num)
    simp [dexp, dweibull, exp_ok', exp_ok, weibull_ok', weibull_ok, hx, not_lt.2 hr.le, eps, ← one_div, not_lt.2 h,
      not_lt.2 h1]
  · refine same_of (dexp_Ioi hr) (C08_dweibull eps_le_one h)
      (s := Set.Ioi 0) (fun x hx => ?_) (Set.mem_Ioi.2 hx) b
    have hx : 0 < x := hx
    have e2 : x / (1 / r) = r * x := by field_simp
    rw [expPdf, weibullPdf, if_pos hx.le, if_pos hx, e2, sub_self, Real.rpow_zero, Real.rpow_one, neg_mul]
    field_simp
example : dexp (fin (1 / 2)) (fin 2) true = dweibull (fin (1 / 2)) 1 (1 / fin 2) true :=
  C39_dexp_weibull_partial (r := 2) (hr := by meets) (h := by meets) (x := 1 / 2) (hx := by meets) (b := true)

theorem C39_dexp_weibull_violated {r : ℝ} (hr : 0 < r) (h : Lib.eps ≤ 1 / r) :
    dexp (fin 0) (fin r) false = fin r ∧ dweibull (fin 0) 1 (1 / fin r) false = nan := by
  have e : (1 / fin r : Fl) = fin (1 / r) := by rw [one_eq]; exact ifin_div _ hr.ne'
  have h1 : Lib.eps ≤ (1 : ℝ) := Lib.eps_le.trans (by norm_num)
  constructor
  · have := (C08_dexp hr 0 (Set.mem_Ici.2 le_rfl)).2.1
    simpa [expPdf] using this
  · have h3 : (fin 0 / fin (1 / r) : Fl) = fin 0 := by rw [ifin_div _ (by positivity), zero_div]
    have h4 : log (fin 0) = ninf := by simp [log]
    have h5 : (fin 1 - fin 1 : Fl) = fin 0 := by rw [ifin_sub, sub_self]
    rw [e, one_eq, dweibull, if_neg, if_neg, if_neg, if_neg, h3, dweibull_log_compute, h4, one_eq, h5]
    · have : fin 0 * ninf = nan := by rw [fin_mul_ninf, if_pos rfl]
      rw [this]
      simp [exp_if]
    all_goals simp [weibull_ok', weibull_ok, eps, not_lt.2 h1, ← one_div, not_lt.2 h]
example : dexp (fin 0) (fin 2) false = fin 2 ∧ dweibull (fin 0) 1 (1 / fin 2) false = nan :=
  C39_dexp_weibull_violated (r := 2) (hr := by meets) (h := by meets)

/-- missing: `0 < x < eps`, where `pgamma` and `pweibull` are cut off -/
theorem C39_pexp_gamma_partial {r : ℝ} (hr : 0 < r) (h : Lib.eps ≤ 1 / r) {x : ℝ} (hx : Lib.eps ≤ x ∨ x ≤ 0) :
    pexp (fin x) (fin r) false = pgamma (fin x) 1 (1 / fin r) false := by
  have e : (1 / fin r : Fl) = fin (1 / r) := by rw [one_eq]; exact ifin_div _ hr.ne'
  rw [e, one_eq, pexp_fin hr, pgamma_fin one_pos h x hx]
  congr 1
  have e2 : x / (1 / r) = r * x := by field_simp
  by_cases hx0 : 0 < x
  · rw [if_pos hx0, if_pos hx0, e2, gammaP_one (by positivity), neg_mul]
  · rw [if_neg hx0, if_neg hx0]
example : pexp (fin (1 / 2)) (fin 2) false = pgamma (fin (1 / 2)) 1 (1 / fin 2) false :=
  C39_pexp_gamma_partial (r := 2) (hr := by meets) (h := by meets) (x := 1 / 2) (hx := by meets)

theorem C39_pexp_weibull_partial {r : ℝ} (hr : 0 < r) (h : Lib.eps ≤ 1 / r) {x : ℝ} (hx : Lib.eps ≤ x ∨ x ≤ 0) :
    pexp (fin x) (fin r) false = pweibull (fin x) 1 (1 / fin r) false := by
  have e : (1 / fin r : Fl) = fin (1 / r) := by rw [one_eq]; exact ifin_div _ hr.ne'
  rw [e, one_eq, pexp_fin hr, pweibull_fin eps_le_one h x hx]
  have e2 : x / (1 / r) = r * x := by field_simp
  rw [e2, Real.rpow_one, neg_mul]
example : pexp (fin (1 / 2)) (fin 2) false = pweibull (fin (1 / 2)) 1 (1 / fin 2) false :=
  C39_pexp_weibull_partial (r := 2) (hr := by meets) (h := by meets) (x := 1 / 2) (hx := by meets)

theorem C39_pexp_gamma_violated {r : ℝ} (hr : 0 < r) (h : Lib.eps ≤ 1 / r) {x : ℝ} (h0 : 0 < x) (hx : x < Lib.eps) :
    pexp (fin x) (fin r) false ≠ pgamma (fin x) 1 (1 / fin r) false ∧
    pexp (fin x) (fin r) false ≠ pweibull (fin x) 1 (1 / fin r) false := by
  have e : (1 / fin r : Fl) = fin (1 / r) := by rw [one_eq]; exact ifin_div _ hr.ne'
  rw [e, one_eq, pexp_fin hr, gamma_cut hx one_pos h, weibull_cut hx eps_le_one h, if_pos h0]
  have : Real.exp (-r * x) < 1 := by rw [Real.exp_lt_one_iff]; nlinarith
  constructor <;> intro hc <;> have := fin.inj hc <;> linarith

theorem quant_same {q q' : Fl → Fl} {F f : ℝ → ℝ} (hF : IsCdf F f) (hq : IsInv q F) (hq' : IsInv q' F) {u : ℝ}
    (h0 : 0 < u) (h1 : u < 1) : q (fin u) = q' (fin u) := by
  obtain ⟨x, rfl⟩ := hF.exists_eq h0 h1
  rw [hq x h0 h1, hq' x h0 h1]

theorem quant_same' {q q' : Fl → Fl} {F f : ℝ → ℝ} {lo hi : Fl} (hF : IsCdf F f) (hq : IsInv q F) (hq' : IsInv q' F)
    (hm : MonoQuant q lo hi) (hm' : MonoQuant q' lo hi) {u : ℝ} (h0 : 0 ≤ u) (h1 : u ≤ 1) : q (fin u) = q' (fin u) := by
  rcases h0.eq_or_lt with rfl | h0
  · rw [hm.1, hm'.1]
  rcases h1.eq_or_lt with rfl | h1
  · rw [hm.2.1, hm'.2.1]
  exact quant_same hF hq hq' h0 h1

/-- All three quantile functions agree at every probability. -/
theorem C39_qexp_weibull {r : ℝ} (hr : 0 < r) (h : Lib.eps ≤ 1 / r) {u : ℝ} (h0 : 0 ≤ u) (h1 : u ≤ 1) :
    qexp (fin u) (fin r) = qweibull (fin u) 1 (1 / fin r) := by
  have e : (1 / fin r : Fl) = fin (1 / r) := by rw [one_eq]; exact ifin_div _ hr.ne'
  rw [e, one_eq]
  have e2 : (fun x : ℝ => if 0 < x then 1 - Real.exp (-(x / (1 / r)) ^ (1 : ℝ)) else 0) =
      fun x => if 0 < x then 1 - Real.exp (-r * x) else 0 := by
    funext x; rw [Real.rpow_one, show x / (1 / r) = r * x by field_simp, neg_mul]
  exact quant_same' (isCdf_exp hr) (qexp_inv hr) (e2 ▸ qweibull_inv eps_le_one h) (C16_exp hr)
    (C16_weibull eps_le_one h) h0 h1
example : qexp (fin (1 / 3)) (fin 2) = qweibull (fin (1 / 3)) 1 (1 / fin 2) :=
  C39_qexp_weibull (r := 2) (hr := by meets) (h := by meets) (u := 1 / 3) (h0 := by meets) (h1 := by meets)

theorem C39_qexp_gamma {r : ℝ} (hr : 0 < r) (h : Lib.eps ≤ 1 / r) {u : ℝ} (h0 : 0 ≤ u) (h1 : u ≤ 1) :
    qexp (fin u) (fin r) = qgamma (fin u) 1 (1 / fin r) := by
  have e : (1 / fin r : Fl) = fin (1 / r) := by rw [one_eq]; exact ifin_div _ hr.ne'
  rw [e, one_eq]
  have e2 : (fun x : ℝ => if 0 < x then gammaP 1 (x / (1 / r)) else 0) =
      fun x => if 0 < x then 1 - Real.exp (-r * x) else 0 := by
    funext x
    by_cases hx : 0 < x
    · rw [if_pos hx, if_pos hx, show x / (1 / r) = r * x by field_simp, gammaP_one (by positivity), neg_mul]
    · rw [if_neg hx, if_neg hx]
  exact quant_same' (isCdf_exp hr) (qexp_inv hr) (e2 ▸ qgamma_inv one_pos h) (C16_exp hr) (C16_gamma one_pos h) h0 h1
example : qexp (fin (1 / 3)) (fin 2) = qgamma (fin (1 / 3)) 1 (1 / fin 2) :=
  C39_qexp_gamma (r := 2) (hr := by meets) (h := by meets) (u := 1 / 3) (h0 := by meets) (h1 := by meets)

/-! ### Student t with one degree of freedom is the standard Cauchy distribution -/

theorem C39_dt_cauchy (x : ℝ) (b : Bool) : dt (fin x) 1 b = dcauchy (fin x) 0 1 b := by
  rw [one_eq, zero_eq]
  refine same_of (C08_dt eps_le_one) (C08_dcauchy 0 one_pos) (s := Set.univ) (fun x _ => ?_) trivial b
  rw [tPdf, cauchyPdf]
  have hx : (0 : ℝ) < 1 + x ^ 2 := by positivity
  have hp := Real.sqrt_pos.2 Real.pi_pos
  have hpp := Real.mul_self_sqrt Real.pi_pos.le
  norm_num [Real.Gamma_one_half_eq, Real.rpow_neg_one]
  rw [← mul_inv, hpp]; ring

theorem C39_pt_cauchy (x : ℝ) : pt (fin x) 1 false = pcauchy (fin x) 0 1 false := by
  rw [one_eq, zero_eq, pt_fin eps_le_one, pcauchy_fin 0 one_pos, ← tCdfCoded_eq one_pos, tCdfCoded, if_pos rfl,
    sub_zero, div_one]

theorem C39_qt_cauchy {u : ℝ} (h0 : 0 ≤ u) (h1 : u ≤ 1) : qt (fin u) 1 = qcauchy (fin u) 0 1 := by
  rw [one_eq, zero_eq]
  have e : tCdfCoded 1 = fun x => 1 / 2 + Real.arctan ((x - 0) / 1) / Real.pi := by
    funext x; rw [tCdfCoded, if_pos rfl, sub_zero, div_one]
  exact quant_same' (isCdf_tCoded one_pos) qt_one_inv (e ▸ qcauchy_inv 0 one_pos) C16_qt_one (C16_cauchy 0 one_pos)
    h0 h1
example : qt (fin (1 / 3)) 1 = qcauchy (fin (1 / 3)) 0 1 :=
  C39_qt_cauchy (u := 1 / 3) (h0 := by meets) (h1 := by meets)

/-! ### Log-normal is the exponential of a normal variable -/

theorem C39_dlnorm (mu : ℝ) {sigma : ℝ} (h : 0 < sigma) {x : ℝ} (hx : 0 < x) :
    ∃ r : ℝ, dnorm (fin (Real.log x)) (fin mu) (fin sigma) false = fin r ∧
      dlnorm (fin x) (fin mu) (fin sigma) false = fin (r / x) := by
  refine ⟨_, (C08_dnorm mu h (Real.log x) trivial).2.1, ?_⟩
  refine ((C08_dlnorm mu h x hx).2.1).trans ?_
  rw [lnormPdf, if_pos hx, normPdf]; congr 1; ring
example : ∃ r : ℝ, dnorm (fin (Real.log (1 / 2))) (fin 3) (fin 2) false = fin r ∧
      dlnorm (fin (1 / 2)) (fin 3) (fin 2) false = fin (r / (1 / 2)) :=
  C39_dlnorm (mu := 3) (sigma := 2) (h := by meets) (x := 1 / 2) (hx := by meets)

/-- missing: `0 < x < eps`, where `plnorm` is cut off (`C14_lnorm_violated`) -/
theorem C39_plnorm_partial (mu : ℝ) {sigma : ℝ} (h : 0 < sigma) {x : ℝ} (hx : Lib.eps ≤ x) :
    plnorm (fin x) (fin mu) (fin sigma) false = pnorm (fin (Real.log x)) (fin mu) (fin sigma) false := by
  rw [plnorm_fin mu h x (Or.inl hx), pnorm_fin mu h, if_pos (Lib.eps_pos.trans_le hx)]
example : plnorm (fin (1 / 2)) (fin 3) (fin 2) false = pnorm (fin (Real.log (1 / 2))) (fin 3) (fin 2) false :=
  C39_plnorm_partial (mu := 3) (sigma := 2) (h := by meets) (x := 1 / 2) (hx := by meets)

theorem C39_plnorm_violated (mu : ℝ) {sigma : ℝ} (h : 0 < sigma) {x : ℝ} (_h0 : 0 < x) (hx : x < Lib.eps) :
    plnorm (fin x) (fin mu) (fin sigma) false ≠ pnorm (fin (Real.log x)) (fin mu) (fin sigma) false := by
  rw [lnorm_cut hx mu h, pnorm_fin mu h]
  intro hc
  exact (Phi_pos _).ne (fin.inj hc)

theorem C39_qlnorm (mu : ℝ) {sigma : ℝ} (h : 0 < sigma) {u : ℝ} (h0 : 0 < u) (h1 : u < 1) :
    ∃ z : ℝ, qnorm (fin u) (fin mu) (fin sigma) = fin z ∧ qlnorm (fin u) (fin mu) (fin sigma) = fin (Real.exp z) := by
  obtain ⟨z, hz⟩ := (isCdf_norm mu h).exists_eq h0 h1
  refine ⟨z, ?_, ?_⟩
  · rw [← hz] at h0 h1 ⊢; exact qnorm_inv mu h z h0 h1
  · have e : Phi ((Real.log (Real.exp z) - mu) / sigma) = u := by rw [Real.log_exp]; exact hz
    have := qlnorm_inv mu h (Real.exp z)
    simp only [if_pos (Real.exp_pos z), e] at this
    exact this h0 h1
example : ∃ z : ℝ, qnorm (fin (1 / 3)) (fin 3) (fin 2) = fin z ∧ qlnorm (fin (1 / 3)) (fin 3) (fin 2) = fin (Real.exp z) :=
  C39_qlnorm (mu := 3) (sigma := 2) (h := by meets) (u := 1 / 3) (h0 := by meets) (h1 := by meets)

/-! ### Inverse gamma is the reciprocal of gamma -/

theorem C39_dinvgamma {a r : ℝ} (ha : 0 < a) (hr : 0 < r) (h : Lib.eps ≤ 1 / r) {x : ℝ} (hx : 0 < x) :
    ∃ d : ℝ, dgamma (fin (1 / x)) (fin a) (fin (1 / r)) false = fin d ∧
      dinvgamma (fin x) (fin a) (fin r) false = fin (d / x ^ 2) := by
  refine ⟨_, (C08_dgamma ha h (1 / x) (by simpa using hx)).2.1, ?_⟩
  refine ((C08_dinvgamma ha hr x hx).2.1).trans ?_
  have hG := Real.Gamma_pos_of_pos ha
  have h1 : (0 : ℝ) < 1 / x := by positivity
  have h2 : -(1 / x) / (1 / r) = -r / x := by field_simp
  rw [invgammaPdf, gammaPdf, if_pos hx, if_pos h1, h2, one_div, Real.inv_rpow hx.le, ← Real.rpow_neg hx.le, one_div,
    Real.inv_rpow hr.le]
  have h3 : x ^ (-a - 1) = x ^ (-(a - 1)) / x ^ 2 := by
    rw [← Real.rpow_natCast, ← Real.rpow_sub hx]; congr 1; push_cast; ring
  rw [h3]
  have := Real.rpow_pos_of_pos hr a
  congr 1
  field_simp
example : ∃ d : ℝ, dgamma (fin (1 / (1 / 2))) (fin 1) (fin (1 / 2)) false = fin d ∧
      dinvgamma (fin (1 / 2)) (fin 1) (fin 2) false = fin (d / (1 / 2) ^ 2) :=
  C39_dinvgamma (a := 1) (r := 2) (ha := by meets) (hr := by meets) (h := by meets) (x := 1 / 2) (hx := by meets)

/-- `P(X ≤ x) = 1 - P(G < 1/x)` for every positive `x` (the cut of `pgamma` acts on both sides) -/
theorem C39_pinvgamma {a r : ℝ} (ha : 0 < a) (hr : 0 < r) (h : Lib.eps ≤ 1 / r) {x : ℝ} (hx : 0 < x) :
    ∃ u : ℝ, pgamma (fin (1 / x)) (fin a) (fin (1 / r)) false = fin u ∧
      pinvgamma (fin x) (fin a) (fin r) false = fin (1 - u) := by
  have h1 : (0 : ℝ) < 1 / x := by positivity
  by_cases hc : Lib.eps ≤ 1 / x
  · refine ⟨_, pgamma_fin ha h (1 / x) (Or.inl hc), ?_⟩
    rw [pinvgamma_fin ha hr h x (Or.inl hc), if_pos hx, if_pos h1]
    congr 3; field_simp
  · refine ⟨0, gamma_cut (not_le.1 hc) ha h, ?_⟩
    rw [invgamma_cut hx (not_le.1 hc) ha hr h, sub_zero]
example : ∃ u : ℝ, pgamma (fin (1 / (1 / 2))) (fin 1) (fin (1 / 2)) false = fin u ∧
      pinvgamma (fin (1 / 2)) (fin 1) (fin 2) false = fin (1 - u) :=
  C39_pinvgamma (a := 1) (r := 2) (ha := by meets) (hr := by meets) (h := by meets) (x := 1 / 2) (hx := by meets)

theorem C39_qinvgamma {a r : ℝ} (ha : 0 < a) (hr : 0 < r) (h : Lib.eps ≤ 1 / r) {u : ℝ} (h0 : 0 < u) (h1 : u < 1) :
    ∃ g : ℝ, 0 < g ∧ qgamma (fin (1 - u)) (fin a) (fin (1 / r)) = fin g ∧
      qinvgamma (fin u) (fin a) (fin r) = fin (1 / g) := by
  obtain ⟨x, hx⟩ := (isCdf_invgamma ha hr).exists_eq h0 h1
  have hx0 : 0 < x := by by_contra hc; simp only [if_neg hc] at hx; linarith
  have hq := qinvgamma_inv ha hr x
  have hg := qgamma_inv ha h (1 / x)
  have h2 : (0 : ℝ) < 1 / x := by positivity
  simp only [if_pos hx0] at hx hq
  simp only [if_pos h2, show 1 / x / (1 / r) = r / x by field_simp] at hg
  have e : gammaP a (r / x) = 1 - u := by linarith
  rw [hx] at hq
  rw [e] at hg
  exact ⟨1 / x, h2, hg (by linarith) (by linarith), by rw [one_div_one_div]; exact hq h0 h1⟩
example : ∃ g : ℝ, 0 < g ∧ qgamma (fin (1 - (1 / 3))) (fin 1) (fin (1 / 2)) = fin g ∧
      qinvgamma (fin (1 / 3)) (fin 1) (fin 2) = fin (1 / g) :=
  C39_qinvgamma (a := 1) (r := 2) (ha := by meets) (hr := by meets) (h := by meets) (u := 1 / 3) (h0 := by meets) (h1 := by meets)

/-! ### Bernoulli is binomial with one trial -/

theorem C39_dbern_binom {p : ℝ} (h0 : 0 ≤ p) (h1 : p ≤ 1) (x : ℤ) (b : Bool) :
    dbern x (fin p) b = dbinom x 1 (fin p) b := by
  have e : bernPmf p x = binomPmf 1 p x := by
    rw [bernPmf, binomPmf]
    by_cases hx1 : x = 1
    · subst hx1; simp
    by_cases hx0 : x = 0
    · subst hx0; simp
    rw [if_neg hx1, if_neg hx0, if_neg (by push_cast; omega)]
  obtain ⟨-, h2, h3⟩ := C08_dbern h0 h1 x
  obtain ⟨-, h4, h5⟩ := C08_dbinom 1 h0 h1 x
  rw [← e] at h4 h5
  cases b
  · rw [h2]; exact h4.symm
  · rw [h3]; exact h5.symm
example : dbern 2 (fin (1 / 3)) true = dbinom 2 1 (fin (1 / 3)) true :=
  C39_dbern_binom (p := 1 / 3) (h0 := by meets) (h1 := by meets) (x := 2) (b := true)

theorem fl_not_lt {x y : Fl} (h : y ≤ x) : ¬ x < y := by
  cases x <;> cases y <;> simp_all

/-- holds in every arithmetic -/
theorem C39_pbern_binom {p : Fl} (hp : Prob p) (x : ℤ) (b : Bool) : pbern x p b = pbinom x 1 p b := by
  obtain ⟨r, h0, h1, rfl⟩ := hp
  rw [pbinom, if_neg (by simp [binom_ok, h0, h1])]
  split_ifs with h2 h3
  · cases b <;> simp [pbern, bern_ok, h0, h1, pbern_compute, h2, log_if, log_zero_if, log]
  · cases b <;> simp [pbern, bern_ok, h0, h1, pbern_compute, h2, not_lt.2 (show (0 : ℤ) ≤ x by omega), h3, log_if]
  · rfl
  · exact absurd rfl ‹_›

theorem C39_qbern_binom_partial {p u : ℝ} (h0 : 0 ≤ p) (h1 : p ≤ 1) (hu0 : 0 ≤ u) (hu1 : u < 1) :
    qbinom (fin u) 1 (fin p) = some (qbern (fin u) (fin p)) := by
  obtain ⟨k, hk, ha, hb, hc⟩ := C18_qbern hu0 hu1.le h0 h1
  obtain ⟨j, hj, ha', hb', hc'⟩ := C18_qbinom_partial 1 hu0 hu1 h0 h1
  have hP : Prob (fin p) := ⟨p, h0, h1, rfl⟩
  have e : ∀ x, pbinom x ((1 : ℕ) : ℤ) (fin p) false = pbern x (fin p) false := fun x =>
    (C39_pbern_binom hP x false).symm
  simp only [e] at hb' hc'
  have hjk : j = k := by
    rcases lt_trichotomy j k with hl | he | hl
    · have hjm : j ∈ ({0, 1} : Set ℤ) := by
        have := ha'.1; have := ha'.2; push_cast at this
        simp only [Set.mem_insert_iff, Set.mem_singleton_iff]; omega
      exact absurd (hc j hjm hl) (fl_not_lt hb')
    · exact he
    · have hkm : k ∈ Set.Icc (0 : ℤ) ((1 : ℕ) : ℤ) := by
        rcases ha with h | h
        · rw [h]; simp
        · rw [Set.mem_singleton_iff.1 h]; simp
      exact absurd (hc' k hkm hl) (fl_not_lt hb)
  rw [hk, ← hjk]; exact hj
example : qbinom (fin (1 / 3)) 1 (fin (1 / 3)) = some (qbern (fin (1 / 3)) (fin (1 / 3))) :=
  C39_qbern_binom_partial (p := 1 / 3) (u := 1 / 3) (h0 := by meets) (h1 := by meets) (hu0 := by meets) (hu1 := by meets)

/-- missing above: `u = 1`, where `qbinom` ignores `p` -/
theorem C39_qbern_binom_violated : qbinom (fin 1) 1 (fin 0) = some (fin 1) ∧ qbern (fin 1) (fin 0) = fin 0 := by
  refine ⟨by simpa using (C18_qbinom_violated (n := 1) one_pos).1, ?_⟩
  simp [qbern, bern_ok, prob_val_ok, ideal]

/-! ### F as a ratio of chi-squared variables is a transformed beta variable -/

/-- missing: `0 < x < eps`, where `pf` is cut off (`C14_f_violated`) -/
theorem C39_pf_beta_partial {d₁ d₂ : ℝ} (h1 : Lib.eps ≤ d₁) (h2 : Lib.eps ≤ d₂) {x : ℝ} (hx : Lib.eps ≤ x) :
    pf (fin x) (fin d₁) (fin d₂) false =
      pbeta (fin (d₁ * x / (d₁ * x + d₂))) (fin (d₁ / 2)) (fin (d₂ / 2)) false := by
  have p1 := Lib.eps_pos.trans_le h1
  have p2 := Lib.eps_pos.trans_le h2
  have px := Lib.eps_pos.trans_le hx
  rw [pf_fin h1 h2 x (Or.inl hx), if_pos px, pbeta_fin (half_pos p1) (half_pos p2), betaCdf,
    if_neg (by rw [not_le]; positivity), if_neg, fCdf]
  · congr 2; field_simp; ring
  · rw [not_le, div_lt_one (by positivity)]; linarith

theorem C39_qf_beta {d₁ d₂ : ℝ} (h1 : Lib.eps ≤ d₁) (h2 : Lib.eps ≤ d₂) {u : ℝ} (h0 : 0 < u) (hu : u < 1) :
    ∃ z : ℝ, 0 < z ∧ z < 1 ∧ qbeta (fin u) (fin (d₁ / 2)) (fin (d₂ / 2)) = fin z ∧
      qf (fin u) (fin d₁) (fin d₂) = fin (d₂ * z / (d₁ * (1 - z))) := by
  have p1 := Lib.eps_pos.trans_le h1
  have p2 := Lib.eps_pos.trans_le h2
  obtain ⟨x, hx⟩ := (isCdf_f p1 p2).exists_eq h0 hu
  have hx0 : 0 < x := by by_contra hc; simp only [if_neg hc] at hx; linarith
  have hq := qf_inv h1 h2 x
  simp only [if_pos hx0] at hx hq
  have hz0 : 0 < d₁ * x / (d₁ * x + d₂) := by positivity
  have hz1 : d₁ * x / (d₁ * x + d₂) < 1 := by rw [div_lt_one (by positivity)]; linarith
  have hb := qbeta_inv (half_pos p1) (half_pos p2) (d₁ * x / (d₁ * x + d₂))
  have e : betaCdf (d₁ / 2) (d₂ / 2) (d₁ * x / (d₁ * x + d₂)) = u := by
    rw [← hx, betaCdf, if_neg (not_le.2 hz0), if_neg (not_le.2 hz1), fCdf]; congr 1; field_simp; ring
  rw [e] at hb
  rw [hx] at hq
  refine ⟨_, hz0, hz1, hb h0 hu, ?_⟩
  rw [hq h0 hu]; congr 1
  have : 1 - d₁ * x / (d₁ * x + d₂) = d₂ / (d₁ * x + d₂) := by field_simp; ring
  rw [this]; field_simp

end Stats

namespace Stats.ExamplesC39
open Fl Spec
open scoped Stats.Exact

/-- chi-squared with 2 degrees of freedom at 0 is gamma(1, 2) at 0 -/
example : dchisq (fin 0) (fin 2) false = dgamma (fin 0) (fin 2 / 2) 2 false := C39_dchisq_gamma two_pos _ _

/-- the hypotheses of the exponential relations hold for rate 2 -/
example : pexp (fin 3) (fin 2) false = pgamma (fin 3) 1 (1 / fin 2) false :=
  C39_pexp_gamma_partial two_pos (Exact.eps_le (by norm_num)) (Or.inl (Exact.eps_le (by norm_num)))

/-- and the point where they fail exists -/
example : ∃ x : ℝ, pexp (fin x) (fin 2) false ≠ pgamma (fin x) 1 (1 / fin 2) false :=
  ⟨Lib.eps / 2, (C39_pexp_gamma_violated two_pos (Exact.eps_le (by norm_num)) (half_pos Lib.eps_pos)
    (half_lt_self Lib.eps_pos)).1⟩

/-- F(3, 5) -/
example : pf (fin 1) (fin 3) (fin 5) false = pbeta (fin (3 / 8)) (fin (3 / 2)) (fin (5 / 2)) false := by
  have := C39_pf_beta_partial (d₁ := 3) (d₂ := 5) (x := 1) (Exact.eps_le (by norm_num)) (Exact.eps_le (by norm_num))
    (Exact.eps_le (by norm_num))
  rw [this]; norm_num

end Stats.ExamplesC39

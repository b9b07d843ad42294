import Verif.Spec.Densities
import Verif.Lemmas.IdealArith
import Verif.Lemmas.Meets

/-!
# C08: the densities are the textbook densities (exact arithmetic)

On the interior of the support, both forms; then the values at the ends of the support.
-/

set_option linter.unusedSectionVars false
open Classical
namespace Stats
open Fl Spec
variable [Lib] [Ideal]

theorem isDensityOn_of_log {d : Fl → Bool → Fl} {f : ℝ → ℝ} {s : Set ℝ} (hf : ∀ x ∈ s, 0 < f x)
    (h : ∀ x ∈ s, ∀ b, d (fin x) b = exp_if (fin (Real.log (f x))) (!b)) : IsDensityOn d f s := by
  intro x hx
  refine ⟨hf x hx, ?_, ?_⟩
  · rw [h x hx]; simp only [ideal]; rw [Real.exp_log (hf x hx)]
  · rw [h x hx]; simp only [ideal]

/-! ### normal family -/

omit [Lib] [Ideal] in
theorem normPdf_pos {mu sigma : ℝ} (h : 0 < sigma) (x : ℝ) : 0 < normPdf mu sigma x := by
  have := Real.pi_pos
  unfold normPdf; positivity

omit [Lib] [Ideal] in
theorem log_normPdf {mu sigma : ℝ} (h : 0 < sigma) (x : ℝ) :
    Real.log (normPdf mu sigma x) =
      -(1 / 2) * Real.log (2 * Real.pi) - Real.log sigma - ((x - mu) / sigma) * ((x - mu) / sigma) / 2 := by
  have := Real.pi_pos
  have h2 : 0 < √(2 * Real.pi) := Real.sqrt_pos.2 (by positivity)
  rw [normPdf, Real.log_mul (by positivity) (by positivity), Real.log_exp, Real.log_div (by norm_num)
    (by positivity), Real.log_one, Real.log_mul h2.ne' h.ne', Real.log_sqrt (by positivity)]
  field_simp
  ring

theorem C08_dnorm (mu : ℝ) {sigma : ℝ} (h : 0 < sigma) :
    IsDensityOn (fun x => dnorm x (fin mu) (fin sigma)) (normPdf mu sigma) Set.univ := by
  refine isDensityOn_of_log (fun x _ => normPdf_pos h x) fun x _ b => ?_
  have h0 : ¬ sigma < 0 := by linarith
  have h1 : ¬ sigma = 0 := by linarith
  simp only [dnorm, norm_ok', norm_ok, dnorm_log_compute, ideal, ilog h, ifin_div _ h1, log_normPdf h]
  simp [h0, h1]
example : IsDensityOn (fun x => dnorm x (fin 3) (fin 2)) (normPdf 3 2) Set.univ :=
  C08_dnorm (mu := 3) (sigma := 2) (h := by meets)

theorem C08_dlnorm (mu : ℝ) {sigma : ℝ} (h : 0 < sigma) :
    IsDensityOn (fun x => dlnorm x (fin mu) (fin sigma)) (lnormPdf mu sigma) (Set.Ioi 0) := by
  intro x hx
  have hx : 0 < x := hx
  have h0 : ¬ sigma < 0 := by linarith
  have h1 : ¬ sigma = 0 := by linarith
  have h2 : ¬ x < 0 := by linarith
  have h3 : ¬ x = 0 := by linarith
  obtain ⟨hp, ha, hb⟩ := C08_dnorm mu h (Real.log x) trivial
  have he : lnormPdf mu sigma x = normPdf mu sigma (Real.log x) / x := by
    rw [lnormPdf, if_pos hx, normPdf]; field_simp
  refine ⟨by rw [he]; positivity, ?_, ?_⟩
  · simp only [dlnorm, lnorm_ok', lnorm_ok, dlnorm_log_check, ilog hx]
    simp [h0, h1, h2, ha, ifin_div _ h3, he]
  · simp only [dlnorm, lnorm_ok', lnorm_ok, dlnorm_log_check, ilog hx]
    simp [h0, h1, h2, hb, ifin_sub, he]
    rw [Real.log_div hp.ne' h3]
example : IsDensityOn (fun x => dlnorm x (fin 3) (fin 2)) (lnormPdf 3 2) (Set.Ioi 0) :=
  C08_dlnorm (mu := 3) (sigma := 2) (h := by meets)

/-! ### uniform, exponential, Cauchy, Laplace, logistic -/

theorem C08_dunif {a b : ℝ} (h : a < b) :
    IsDensityOn (fun x => dunif x (fin a) (fin b)) (unifPdf a b) (Set.Icc a b) := by
  intro x hx
  have h1 : 0 < b - a := by linarith
  have h2 : ¬ b ≤ a := by linarith
  have h3 : ¬ (x < a ∨ b < x) := by rintro (h | h) <;> linarith [hx.1, hx.2]
  have he : unifPdf a b x = 1 / (b - a) := if_pos hx
  refine ⟨by rw [he]; positivity, ?_, ?_⟩
  · simp only [dunif, unif_ok', unif_ok, dunif_log_check, ideal, ifin_div _ h1.ne', he]
    simp [h2, h3]
  · simp only [dunif, unif_ok', unif_ok, dunif_log_check, ideal, ilog h1, he]
    simp [h2, h3]
example : IsDensityOn (fun x => dunif x (fin 1) (fin 4)) (unifPdf 1 4) (Set.Icc 1 4) :=
  C08_dunif (a := 1) (b := 4) (h := by meets)

theorem C08_dexp {rate : ℝ} (h : 0 < rate) :
    IsDensityOn (fun x => dexp x (fin rate)) (expPdf rate) (Set.Ici 0) := by
  have hp : ∀ x ∈ Set.Ici (0 : ℝ), expPdf rate x = rate * Real.exp (-rate * x) := fun x hx => if_pos hx
  refine isDensityOn_of_log (fun x hx => by rw [hp x hx]; positivity) fun x hx b => ?_
  have h0 : ¬ rate < 0 := by linarith
  have h1 : ¬ x < 0 := not_lt.2 hx
  rw [hp x hx, Real.log_mul h.ne' (Real.exp_pos _).ne', Real.log_exp]
  simp only [dexp, exp_ok', exp_ok, dexp_log_compute, ideal, ilog h]
  simp [h0, h1, sub_eq_add_neg]
example : IsDensityOn (fun x => dexp x (fin 2)) (expPdf 2) (Set.Ici 0) := C08_dexp (rate := 2) (h := by meets)

theorem C08_dcauchy (mu : ℝ) {sigma : ℝ} (h : 0 < sigma) :
    IsDensityOn (fun x => dcauchy x (fin mu) (fin sigma)) (cauchyPdf mu sigma) Set.univ := by
  intro x _
  have hpi := Real.pi_pos
  have hp : 0 < cauchyPdf mu sigma x := by unfold cauchyPdf; positivity
  have h0 : ¬ sigma < 0 := by linarith
  have hne : sigma * Real.pi * (1 + (x - mu) / sigma * ((x - mu) / sigma)) ≠ 0 := by
    have : 0 ≤ (x - mu) / sigma * ((x - mu) / sigma) := mul_self_nonneg _
    positivity
  have hc : dcauchy_compute ((fin x - fin mu) / fin sigma) (fin sigma) = fin (cauchyPdf mu sigma x) := by
    simp only [dcauchy_compute, ideal, ifin_div _ h.ne', ifin_div _ hne, cauchyPdf]
    congr 2
    ring
  refine ⟨hp, ?_, ?_⟩ <;> simp [dcauchy, cauchy_ok', cauchy_ok, h0, hc, ilog hp]
example : IsDensityOn (fun x => dcauchy x (fin 3) (fin 2)) (cauchyPdf 3 2) Set.univ :=
  C08_dcauchy (mu := 3) (sigma := 2) (h := by meets)

theorem C08_dlaplace (mu : ℝ) {sigma : ℝ} (h : 0 < sigma) :
    IsDensityOn (fun x => dlaplace x (fin mu) (fin sigma)) (laplacePdf mu sigma) Set.univ := by
  refine isDensityOn_of_log (fun x _ => by unfold laplacePdf; positivity) fun x _ b => ?_
  have h0 : ¬ sigma < 0 := by linarith
  have h1 : ¬ sigma = 0 := by linarith
  rw [laplacePdf, Real.log_mul (by positivity) (by positivity), Real.log_exp, one_div, Real.log_inv]
  have h2 : 0 < 2 * sigma := by linarith
  simp only [dlaplace, laplace_ok', laplace_ok, dlaplace_log_compute, ideal, ilog h2, ifin_div _ h1]
  simp [h0, h1, sub_eq_add_neg, neg_div]
example : IsDensityOn (fun x => dlaplace x (fin 3) (fin 2)) (laplacePdf 3 2) Set.univ :=
  C08_dlaplace (mu := 3) (sigma := 2) (h := by meets)

theorem C08_dlogis (mu : ℝ) {sigma : ℝ} (h : 0 < sigma) :
    IsDensityOn (fun x => dlogis x (fin mu) (fin sigma)) (logisPdf mu sigma) Set.univ := by
  refine isDensityOn_of_log (fun x _ => by unfold logisPdf; positivity) fun x _ b => ?_
  have h0 : ¬ sigma < 0 := by linarith
  have h1 : ¬ sigma = 0 := by linarith
  rw [logisPdf, Real.log_div (by positivity) (by positivity), Real.log_exp, Real.log_mul h1 (by positivity),
    Real.log_pow]
  have h2 : 0 < 1 + Real.exp (-((x - mu) / sigma)) := by positivity
  simp only [dlogis, logis_ok', logis_ok, dlogis_log_compute, ideal, ifin_div _ h1, ilog h2, ilog h]
  simp [h0]
  ring_nf
example : IsDensityOn (fun x => dlogis x (fin 3) (fin 2)) (logisPdf 3 2) Set.univ :=
  C08_dlogis (mu := 3) (sigma := 2) (h := by meets)

/-! ### beta, gamma, inverse gamma, inverse Gaussian, chi-squared -/

omit [Lib] [Ideal] in
theorem log_beta {a b : ℝ} (ha : 0 < a) (hb : 0 < b) : Real.log (beta a b) =
    Real.log (Real.Gamma a) + Real.log (Real.Gamma b) - Real.log (Real.Gamma (a + b)) := by
  have h1 := Real.Gamma_pos_of_pos ha
  have h2 := Real.Gamma_pos_of_pos hb
  have h3 := Real.Gamma_pos_of_pos (add_pos ha hb)
  rw [beta, Real.log_div (by positivity) h3.ne', Real.log_mul h1.ne' h2.ne']

omit [Lib] [Ideal] in
theorem betaPdf_eq {a b x : ℝ} (hx : x ∈ Set.Ioo (0 : ℝ) 1) :
    betaPdf a b x = 1 / beta a b * x ^ (a - 1) * (1 - x) ^ (b - 1) := if_pos hx

omit [Lib] [Ideal] in
theorem betaPdf_pos {a b x : ℝ} (ha : 0 < a) (hb : 0 < b) (hx : x ∈ Set.Ioo (0 : ℝ) 1) :
    0 < betaPdf a b x := by
  have h1 := hx.1
  have h2 : 0 < 1 - x := by linarith [hx.2]
  have := beta_pos ha hb
  rw [betaPdf_eq hx]; positivity

theorem C08_dbeta {a b : ℝ} (ha : 0 < a) (hb : 0 < b) :
    IsDensityOn (fun x => dbeta x (fin a) (fin b)) (betaPdf a b) (Set.Ioo 0 1) := by
  refine isDensityOn_of_log (fun x hx => betaPdf_pos ha hb hx) fun x hx f => ?_
  have h1 := hx.1
  have h2 : 0 < 1 - x := by linarith [hx.2]
  have hB := beta_pos ha hb
  have e1 : ¬ a < 0 := by linarith
  have e2 : ¬ b < 0 := by linarith
  have e3 : ¬ x < 0 := by linarith
  have e4 : ¬ 1 < x := by linarith
  have e5 : ¬ x = 1 := by linarith
  rw [betaPdf_eq hx, Real.log_mul (by positivity) (by positivity), Real.log_mul (by positivity) (by positivity),
    Real.log_rpow h1, Real.log_rpow h2, one_div, Real.log_inv, log_beta ha hb]
  simp only [dbeta, beta_ok', beta_ok, dbeta_log_compute, ideal, ilog h1, ilog h2, ilgamma ha, ilgamma hb,
    ilgamma (add_pos ha hb)]
  simp [e1, e2, e3, e4, e5, ha.ne', hb.ne', h1.ne']
example : IsDensityOn (fun x => dbeta x (fin 1) (fin 4)) (betaPdf 1 4) (Set.Ioo 0 1) :=
  C08_dbeta (a := 1) (b := 4) (ha := by meets) (hb := by meets)

omit [Lib] [Ideal] in
theorem gammaPdf_pos {k θ x : ℝ} (hk : 0 < k) (hθ : 0 < θ) (hx : 0 < x) : 0 < gammaPdf k θ x := by
  have := Real.Gamma_pos_of_pos hk
  rw [gammaPdf, if_pos hx]; positivity

theorem C08_dgamma {shape scale : ℝ} (hk : 0 < shape) (hs : Lib.eps ≤ scale) :
    IsDensityOn (fun x => dgamma x (fin shape) (fin scale)) (gammaPdf shape scale) (Set.Ioi 0) := by
  have hs0 := Lib.eps_pos.trans_le hs
  refine isDensityOn_of_log (fun x hx => gammaPdf_pos hk hs0 hx) fun x hx f => ?_
  have hx : 0 < x := hx
  have hG := Real.Gamma_pos_of_pos hk
  have e1 : ¬ shape < 0 := by linarith
  have e2 : ¬ scale < Lib.eps := by linarith
  have e3 : ¬ x < 0 := by linarith
  rw [gammaPdf, if_pos hx, Real.log_div (by positivity) (by positivity), Real.log_mul (by positivity) (by positivity),
    Real.log_mul (by positivity) (by positivity),
    Real.log_rpow hx, Real.log_rpow hs0, Real.log_exp]
  simp only [dgamma, gamma_ok', gamma_ok, dgamma_log_compute, ideal, ilog hx, ilog hs0, ilgamma hk, eps,
    ifin_div _ hs0.ne']
  simp [e1, e2, e3, hx.ne', hk.ne']
  ring_nf
example : IsDensityOn (fun x => dgamma x (fin 3) (fin 2)) (gammaPdf 3 2) (Set.Ioi 0) :=
  C08_dgamma (shape := 3) (scale := 2) (hk := by meets) (hs := by meets)

theorem C08_dinvgamma {shape rate : ℝ} (hk : 0 < shape) (hr : 0 < rate) :
    IsDensityOn (fun x => dinvgamma x (fin shape) (fin rate)) (invgammaPdf shape rate) (Set.Ioi 0) := by
  have hG := Real.Gamma_pos_of_pos hk
  refine isDensityOn_of_log (fun x hx => ?_) fun x hx f => ?_
  · have hx : 0 < x := hx
    rw [invgammaPdf, if_pos hx]; positivity
  have hx : 0 < x := hx
  have e1 : ¬ shape < 0 := by linarith
  have e2 : ¬ rate < 0 := by linarith
  have e3 : ¬ x < 0 := by linarith
  rw [invgammaPdf, if_pos hx, Real.log_mul (by positivity) (by positivity), Real.log_mul (by positivity) (by positivity),
    Real.log_div (by positivity) (by positivity),
    Real.log_rpow hx, Real.log_rpow hr, Real.log_exp]
  simp only [dinvgamma, invgamma_ok', invgamma_ok, dinvgamma_log_compute, ideal, ilog hx, ilog hr, ilgamma hk,
    ifin_div _ hx.ne']
  simp [e1, e2, e3, hx.ne', hk.ne', hr.ne']
  ring_nf
example : IsDensityOn (fun x => dinvgamma x (fin 3) (fin 2)) (invgammaPdf 3 2) (Set.Ioi 0) :=
  C08_dinvgamma (shape := 3) (rate := 2) (hk := by meets) (hr := by meets)

theorem C08_dinvgauss {mu lambda : ℝ} (hm : 0 < mu) (hl : 0 < lambda) :
    IsDensityOn (fun x => dinvgauss x (fin mu) (fin lambda)) (invgaussPdf mu lambda) (Set.Ioi 0) := by
  have hpi := Real.pi_pos
  refine isDensityOn_of_log (fun x hx => ?_) fun x hx f => ?_
  · have hx : 0 < x := hx
    rw [invgaussPdf, if_pos hx]
    have : 0 < √(lambda / (2 * Real.pi * x ^ 3)) := Real.sqrt_pos.2 (by positivity)
    positivity
  have hx : 0 < x := hx
  have e1 : ¬ mu < 0 := by linarith
  have e2 : ¬ lambda < 0 := by linarith
  have e3 : ¬ x < 0 := by linarith
  have hs : 0 < √(lambda / (2 * Real.pi * x ^ 3)) := Real.sqrt_pos.2 (by positivity)
  have hne : 2 * mu * mu * x ≠ 0 := by positivity
  rw [invgaussPdf, if_pos hx, Real.log_mul hs.ne' (by positivity), Real.log_sqrt (by positivity),
    Real.log_div (by positivity) (by positivity), Real.log_mul (by positivity) (by positivity), Real.log_pow,
    Real.log_exp]
  simp only [dinvgauss, invgauss_ok', invgauss_ok, dinvgauss_log_compute, dinvgauss_log_compute_term_1,
    dinvgauss_log_compute_term_2, ideal, ilog hx, ilog hl, ifin_div _ hne]
  simp [e1, e2, e3, hx.ne', hl.ne']
  ring_nf
example : IsDensityOn (fun x => dinvgauss x (fin 3) (fin 2)) (invgaussPdf 3 2) (Set.Ioi 0) :=
  C08_dinvgauss (mu := 3) (lambda := 2) (hm := by meets) (hl := by meets)

theorem C08_dchisq {dof : ℝ} (hk : 0 < dof) :
    IsDensityOn (fun x => dchisq x (fin dof)) (chisqPdf dof) (Set.Ioi 0) := by
  have hk2 : 0 < 1 / 2 * dof := by linarith
  have hG := Real.Gamma_pos_of_pos hk2
  have he : dof / 2 = 1 / 2 * dof := by ring
  refine isDensityOn_of_log (fun x hx => ?_) fun x hx f => ?_
  · have hx : 0 < x := hx
    rw [chisqPdf, if_pos hx, he]; positivity
  have hx : 0 < x := hx
  have e1 : ¬ dof < 0 := by linarith
  have e3 : ¬ x < 0 := by linarith
  rw [chisqPdf, if_pos hx, he, Real.log_div (by positivity) (by positivity), Real.log_mul (by positivity) (by positivity),
    Real.log_mul (by positivity) (by positivity),
    Real.log_rpow hx, Real.log_rpow two_pos, Real.log_exp]
  simp only [dchisq, chisq_ok', chisq_ok, dchisq_compute, ideal, ilog hx, ilgamma hk2]
  simp [e1, e3, hx.ne']
  ring_nf
example : IsDensityOn (fun x => dchisq x (fin 4)) (chisqPdf 4) (Set.Ioi 0) := C08_dchisq (dof := 4) (hk := by meets)

/-! ### F, t, Weibull -/

theorem C08_df {d1 d2 : ℝ} (h1 : Lib.eps ≤ d1) (h2 : Lib.eps ≤ d2) :
    IsDensityOn (fun x => df x (fin d1) (fin d2)) (fPdf d1 d2) (Set.Ioi 0) := by
  intro x hx
  have hx : 0 < x := hx
  have p1 := Lib.eps_pos.trans_le h1
  have p2 := Lib.eps_pos.trans_le h2
  have q1 : 0 < d1 / 2 := by linarith
  have q2 : 0 < d2 / 2 := by linarith
  set w := d1 * x / d2 with hw
  have hw0 : 0 < w := by positivity
  have hw1 : 0 < 1 + w := by positivity
  have hz : w / (1 + w) ∈ Set.Ioo (0 : ℝ) 1 := ⟨by positivity, by rw [div_lt_one hw1]; linarith⟩
  obtain ⟨b0, b1, b2⟩ := C08_dbeta q1 q2 _ hz
  -- the factor dz/dx
  have hadj : ((d1 / 2) / (d2 / 2)) / (1 + w) * (1 - x * (((d1 / 2) / (d2 / 2)) / (1 + w))) =
      d1 / d2 / (1 + w) ^ 2 := by
    rw [hw]; field_simp; ring
  have hadj0 : 0 < d1 / d2 / (1 + w) ^ 2 := by positivity
  have hf : fPdf d1 d2 x = betaPdf (d1 / 2) (d2 / 2) (w / (1 + w)) * (d1 / d2 / (1 + w) ^ 2) := by
    have hB := beta_pos q1 q2
    rw [fPdf, if_pos hx, betaPdf_eq hz]
    have hwx : d1 / d2 * x = w := by rw [hw]; ring
    have h1w : 1 - w / (1 + w) = 1 / (1 + w) := by field_simp; ring
    rw [hwx, h1w, Real.div_rpow hw0.le hw1.le, Real.div_rpow zero_le_one hw1.le, Real.one_rpow]
    have hwpow : w ^ (d1 / 2 - 1) = (d1 / d2) ^ (d1 / 2) * x ^ (d1 / 2 - 1) / (d1 / d2) := by
      rw [← hwx, Real.mul_rpow (by positivity) hx.le, Real.rpow_sub_one (by positivity)]
      ring
    have hexp : (1 + w) ^ (-((d1 + d2) / 2)) = 1 / ((1 + w) ^ (d1 / 2 - 1) * (1 + w) ^ (d2 / 2 - 1) * (1 + w) ^ 2) := by
      rw [← Real.rpow_natCast, ← Real.rpow_add hw1, ← Real.rpow_add hw1, one_div, ← Real.rpow_neg hw1.le]
      congr 1; push_cast; ring
    rw [hwpow, hexp]
    have : 0 < (1 + w) ^ (d1 / 2 - 1) := by positivity
    have : 0 < (1 + w) ^ (d2 / 2 - 1) := by positivity
    field_simp
  have e1 : ¬ d1 < Lib.eps := by linarith
  have e2 : ¬ d2 < Lib.eps := by linarith
  have e3 : ¬ x < 0 := by linarith
  have hab : d1 / 2 / (d2 / 2) = d1 / d2 := by field_simp
  rw [hab] at hadj
  refine ⟨by rw [hf]; positivity, ?_, ?_⟩
  · simp only [df, f_ok', f_ok, df_log_check, df_compute_adj, ideal, ifin_div _ p2.ne', ifin_div _ q2.ne',
      ← hw, ifin_div _ hw1.ne', eps, hab]
    simp [e1, e2, e3, hx.ne', b1, ideal, hf, hadj]
  · simp only [df, f_ok', f_ok, df_log_check, df_compute_adj, ideal, ifin_div _ p2.ne', ifin_div _ q2.ne',
      ← hw, ifin_div _ hw1.ne', eps, hab, hadj, ilog hadj0]
    simp [e1, e2, e3, hx.ne', b2, ideal, hf]
    rw [Real.log_mul b0.ne' hadj0.ne']
example : IsDensityOn (fun x => df x (fin 3) (fin 5)) (fPdf 3 5) (Set.Ioi 0) :=
  C08_df (d1 := 3) (d2 := 5) (h1 := by meets) (h2 := by meets)

theorem C08_dt {dof : ℝ} (h : Lib.eps ≤ dof) :
    IsDensityOn (fun x => dt x (fin dof)) (tPdf dof) Set.univ := by
  have p := Lib.eps_pos.trans_le h
  have hpi := Real.pi_pos
  have g1 : 0 < dof / 2 + 1 / 2 := by positivity
  have g2 : 0 < dof / 2 := by positivity
  have G1 := Real.Gamma_pos_of_pos g1
  have G2 := Real.Gamma_pos_of_pos g2
  have he : (dof + 1) / 2 = dof / 2 + 1 / 2 := by ring
  have hsq : 0 < √(dof * Real.pi) := Real.sqrt_pos.2 (by positivity)
  refine isDensityOn_of_log (fun x _ => ?_) fun x _ f => ?_
  · rw [tPdf, he]; positivity
  have e1 : ¬ dof < Lib.eps := by linarith
  have hz : 1 + x / dof * x = 1 + x ^ 2 / dof := by ring
  have hz0 : 0 < 1 + x ^ 2 / dof := by positivity
  rw [tPdf, he, Real.log_mul (by positivity) (by positivity), Real.log_div (by positivity) (by positivity),
    Real.log_mul (by positivity) (by positivity), Real.log_sqrt (by positivity),
    Real.log_mul p.ne' hpi.ne', Real.log_rpow hz0]
  simp only [dt, t_ok', t_ok, dt_log_compute, dt_log_cons_term, dt_log_mult_term, ideal, ifin_div _ p.ne', hz,
    ilog hz0, ilog p, ilgamma g1, ilgamma g2, eps]
  simp [e1]
  ring_nf
example : IsDensityOn (fun x => dt x (fin 4)) (tPdf 4) Set.univ := C08_dt (dof := 4) (h := by meets)

theorem C08_dweibull {shape scale : ℝ} (hk : Lib.eps ≤ shape) (hs : Lib.eps ≤ scale) :
    IsDensityOn (fun x => dweibull x (fin shape) (fin scale)) (weibullPdf shape scale) (Set.Ioi 0) := by
  have p := Lib.eps_pos.trans_le hk
  have q := Lib.eps_pos.trans_le hs
  refine isDensityOn_of_log (fun x hx => ?_) fun x hx f => ?_
  · have hx : 0 < x := hx
    rw [weibullPdf, if_pos hx]; positivity
  have hx : 0 < x := hx
  have e1 : ¬ shape < Lib.eps := by linarith
  have e2 : ¬ scale < Lib.eps := by linarith
  have e3 : ¬ x < 0 := by linarith
  have hz : 0 < x / scale := by positivity
  have hks : 0 < shape / scale := by positivity
  rw [weibullPdf, if_pos hx, Real.log_mul (by positivity) (by positivity), Real.log_mul (by positivity) (by positivity),
    Real.log_rpow hz, Real.log_exp]
  simp only [dweibull, weibull_ok', weibull_ok, dweibull_log_compute, ideal, ifin_div _ q.ne', ilog hz, ilog hks,
    ipow _ hz, eps]
  simp [e1, e2, e3, hx.ne']
  ring_nf
example : IsDensityOn (fun x => dweibull x (fin 3) (fin 2)) (weibullPdf 3 2) (Set.Ioi 0) :=
  C08_dweibull (shape := 3) (scale := 2) (hk := by meets) (hs := by meets)

end Stats

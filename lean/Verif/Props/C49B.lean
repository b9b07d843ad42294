import Verif.Props.C49
import Verif.Lemmas.RealCdf
import Verif.Lemmas.Meets

/-!
# C49: accuracy of the distribution and quantile functions under rounding

The exact value of a distribution function is the integral of the textbook density; the exact quantile is the
point where that integral is `p`. Where the code subtracts from 1 only the absolute error is small;
`Verif/Props/C49C.lean` shows that the relative error can be total.
-/

set_option linter.unusedSectionVars false
open Classical
namespace Stats
open Fl Spec
variable [Lib] {u : ℝ} [R : RelLib u]

theorem RelF.log_if {k x : ℝ} {f : Fl} (h : RelF u k x f) (hx : 0 < x) :
    RelAcc u k (Stats.log_if f false) x ∧ AbsAcc u (k + 1) (|Real.log x| + 1) (Stats.log_if f true) (Real.log x) :=
  ⟨h.relAcc, (h.log hx).absAcc⟩

omit [Lib] in
theorem exp_lt_one' {x : ℝ} (h : x < 0) : Real.exp x < 1 := by
  have := Real.exp_lt_exp.2 h
  rwa [Real.exp_zero] at this

/-! ### relative accuracy -/

theorem C49_punif {a b x : ℝ} (ha : a < x) (hb : x < b) :
    RelAcc u 3 (punif (fin x) (fin a) (fin b) false) (∫ t in Set.Iic x, unifPdf a b t) ∧
    AbsAcc u 4 (|Real.log (∫ t in Set.Iic x, unifPdf a b t)| + 1) (punif (fin x) (fin a) (fin b) true)
      (Real.log (∫ t in Set.Iic x, unifPdf a b t)) := by
  have hab := ha.trans hb
  have h1 : 0 < b - a := by linarith
  have h2 : 0 < x - a := by linarith
  have e : ∫ t in Set.Iic x, unifPdf a b t = (x - a) / (b - a) := by
    rw [(isCdf_unif hab).running x, unifCdf]
    rw [if_neg (by linarith), if_neg (by linarith)]
  have r := (relF_sub (u := u) x a).div (relF_sub b a) h1.ne'
  have hv : ∀ f, punif (fin x) (fin a) (fin b) f = Stats.log_if ((fin x - fin a) / (fin b - fin a)) f := fun f => by
    have n1 : ¬ x ≤ a := by linarith
    have n2 : ¬ b ≤ x := by linarith
    have n3 : ¬ b ≤ a := by linarith
    simp [punif, punif_compute, unif_ok', unif_ok, n1, n2, n3]
  rw [hv, hv, e]
  exact (r.mono (by norm_num)).log_if (by positivity) |>.imp id fun h => by norm_num at h; exact h

theorem C49_pexp {rate x : ℝ} (h : 0 < rate) (hx : 0 < x) :
    RelAcc u 2 (pexp (fin x) (fin rate) false) (∫ t in Set.Iic x, expPdf rate t) ∧
    AbsAcc u 3 (|Real.log (∫ t in Set.Iic x, expPdf rate t)| + 1) (pexp (fin x) (fin rate) true)
      (Real.log (∫ t in Set.Iic x, expPdf rate t)) := by
  have hrx : 0 < rate * x := by positivity
  have e : ∫ t in Set.Iic x, expPdf rate t = 1 - Real.exp (-(rate * x)) := by
    rw [(isCdf_exp h).running x, if_pos hx, neg_mul]
  have r0 := (RelF.lift (u := u) rate).neg.mul (RelF.lift x)
  rw [neg_mul] at r0
  have r := r0.neg_expm1 hrx.le
  have hv : ∀ f, pexp (fin x) (fin rate) f = Stats.log_if (-expm1 (-fin rate * fin x)) f := fun f => by
    have n1 : ¬ x ≤ 0 := by linarith
    have n2 : ¬ rate < 0 := by linarith
    simp [pexp, pexp_compute, exp_ok', exp_ok, n1, n2]
  rw [hv, hv, e]
  have hp : 0 < 1 - Real.exp (-(rate * x)) := by
    have := exp_lt_one' (neg_lt_zero.2 hrx); linarith
  exact (r.mono (by norm_num)).log_if hp |>.imp id fun h => by norm_num at h; exact h

/-- `x` below `eps` is flushed to 0 by the code -/
theorem C49_pweibull {shape scale x : ℝ} (hk : Lib.eps ≤ shape) (hs : Lib.eps ≤ scale) (hx : Lib.eps ≤ x) :
    RelAcc u (shape + 2) (pweibull (fin x) (fin shape) (fin scale) false) (∫ t in Set.Iic x, weibullPdf shape scale t) ∧
    AbsAcc u (shape + 3) (|Real.log (∫ t in Set.Iic x, weibullPdf shape scale t)| + 1)
      (pweibull (fin x) (fin shape) (fin scale) true) (Real.log (∫ t in Set.Iic x, weibullPdf shape scale t)) := by
  have p := Lib.eps_pos.trans_le hk
  have q := Lib.eps_pos.trans_le hs
  have hx0 := Lib.eps_pos.trans_le hx
  have hz : 0 < x / scale := by positivity
  have hzk : 0 < (x / scale) ^ shape := by positivity
  have e : ∫ t in Set.Iic x, weibullPdf shape scale t = 1 - Real.exp (-(x / scale) ^ shape) := by
    rw [(isCdf_weibull p q).running x, if_pos hx0]
  have z := ((RelF.lift (u := u) x).div (RelF.lift scale) q.ne').pow hz p.le
  have r := z.neg.neg_expm1 hzk.le
  have hv : ∀ f, pweibull (fin x) (fin shape) (fin scale) f =
      Stats.log_if (-expm1 (-pow (fin x / fin scale) (fin shape))) f := fun f => by
    have n1 : ¬ x < Lib.eps := by linarith
    have n2 : ¬ shape < Lib.eps := by linarith
    have n3 : ¬ scale < Lib.eps := by linarith
    simp [pweibull, pweibull_compute, weibull_ok', weibull_ok, eps, n1, n2, n3]
  rw [hv, hv, e]
  have hp : 0 < 1 - Real.exp (-(x / scale) ^ shape) := by
    have := exp_lt_one' (neg_lt_zero.2 hzk); linarith
  have := (r.mono (l := shape + 2) (by linarith)).log_if hp
  rw [show shape + 2 + 1 = shape + 3 by ring] at this
  exact this

/-- `qweibull` goes through `log1p`; `1/shape` has to be representable -/
theorem C49_qweibull {shape scale p : ℝ} (hk : Lib.eps ≤ shape) (hs : Lib.eps ≤ scale)
    (hr : Lib.rnd (1 / shape) = ((1 / shape : ℝ) : EReal)) (h0 : 0 < p) (h1 : p < 1) :
    ∃ q, (∫ t in Set.Iic q, weibullPdf shape scale t) = p ∧
      RelAcc u (1 / shape + 2) (qweibull (fin p) (fin shape) (fin scale)) q := by
  have pk := Lib.eps_pos.trans_le hk
  have ps := Lib.eps_pos.trans_le hs
  have hl : 0 < -Real.log (1 - p) := by
    have := Real.log_neg (by linarith : 0 < 1 - p) (by linarith); linarith
  have hq : 0 < scale * (-Real.log (1 - p)) ^ (1 / shape) := by positivity
  refine ⟨scale * (-Real.log (1 - p)) ^ (1 / shape), ?_, ?_⟩
  · rw [(isCdf_weibull pk ps).running, if_pos hq]
    rw [mul_div_cancel_left₀ _ ps.ne', ← Real.rpow_mul hl.le, one_div_mul_cancel pk.ne', Real.rpow_one, neg_neg,
      Real.exp_log (by linarith)]
    ring
  · have e1 : (1 : Fl) / fin shape = fin (1 / shape) := by
      have : (1 : Fl) = fin 1 := by show fin ((1 : ℕ) : ℝ) = _; norm_num
      rw [this]
      show (if shape = 0 then _ else ofE (Lib.rnd (1 / shape))) = _
      rw [if_neg pk.ne', hr, ofE_coe]
    obtain ⟨w, ew, hw⟩ := R.log1p (-p) (by linarith)
    have l : RelF u 1 (-Real.log (1 - p)) (-log1p (-fin p)) := by
      refine ⟨zero_le_one, -w, ?_, ?_⟩
      · have : (-fin p : Fl) = fin (-p) := rfl
        rw [this, log1p, if_neg (by linarith), if_neg (by linarith), ew, ofE_coe]; rfl
      · have := hw.neg; rwa [← sub_eq_add_neg] at this
    have r := (RelF.lift (u := u) scale).mul (l.pow hl (by positivity : (0 : ℝ) ≤ 1 / shape))
    have hv : qweibull (fin p) (fin shape) (fin scale) = fin scale * pow (-log1p (-fin p)) (fin (1 / shape)) := by
      have n1 : ¬ shape < Lib.eps := by linarith
      have n2 : ¬ scale < Lib.eps := by linarith
      have n3 : ¬ p < 0 := by linarith
      have n4 : ¬ 1 < p := by linarith
      have n5 : ¬ p = 1 := by linarith
      have n6 : ¬ shape = 0 := by linarith
      rw [← e1]
      simp [qweibull, qweibull_compute, weibull_ok, prob_val_ok, eps, n1, n2, n3, n4, n5, n6, h0.ne']
    rw [hv]
    exact (r.mono (by linarith)).relAcc
example : ∃ q, (∫ t in Set.Iic q, weibullPdf (1 / 2) 2 t) = (1 / 3) ∧
      RelAcc u (1 / (1 / 2) + 2) (qweibull (fin (1 / 3)) (fin (1 / 2)) (fin 2)) q :=
  C49_qweibull (shape := 1 / 2) (scale := 2) (p := 1 / 3) (hk := by meets) (hs := by meets) (hr := by meets) (h0 := by meets) (h1 := by meets)

/-! ### absolute accuracy -/

theorem C49_pnorm (x mu : ℝ) {sigma : ℝ} (h : 0 < sigma) :
    AbsAcc u 7 1 (pnorm (fin x) (fin mu) (fin sigma) false) (∫ t in Set.Iic x, normPdf mu sigma t) := by
  have z := ((relF_sub (u := u) x mu).div (RelF.lift sigma) h.ne').div relF_sqrt2 (by positivity)
  have m : |Spec.erf ((x - mu) / sigma / √2)| ≤ 1 := abs_le.2 ⟨(neg_one_lt_erf _).le, (erf_lt_one _).le⟩
  have c := (relF_half (u := u)).off.mul ((relF_one (u := u)).off.add (z.erf.off.mono le_rfl m))
  have hv : pnorm (fin x) (fin mu) (fin sigma) false = pnorm_compute ((fin x - fin mu) / fin sigma) := by
    have h0 : ¬ sigma < 0 := by linarith
    have h1 : ¬ sigma = 0 := by linarith
    simp [pnorm, norm_ok', norm_ok, log_if, h0, h1]
  rw [hv, (isCdf_norm mu h).running x]
  exact (c.mono (by norm_num) (by norm_num)).absAcc

theorem C49_plogis (x mu : ℝ) {sigma : ℝ} (h : 0 < sigma) :
    AbsAcc u 6 1 (plogis (fin x) (fin mu) (fin sigma) false) (∫ t in Set.Iic x, logisPdf mu sigma t) := by
  have z := (relF_sub (u := u) x mu).div ((relF_two (u := u)).mul (RelF.lift sigma)) (by positivity)
  have m : |Real.tanh ((x - mu) / (2 * sigma))| ≤ 1 :=
    abs_le.2 ⟨(Real.neg_one_lt_tanh _).le, (Real.tanh_lt_one _).le⟩
  have c := (relF_half (u := u)).off.mul ((relF_one (u := u)).off.add (z.tanh.off.mono le_rfl m))
  have hv : plogis (fin x) (fin mu) (fin sigma) false = plogis_compute ((fin x - fin mu) / (2 * fin sigma)) := by
    have h0 : ¬ sigma < 0 := by linarith
    have h1 : ¬ sigma = 0 := by linarith
    simp [plogis, logis_ok', logis_ok, log_if, h0, h1]
  rw [hv, (isCdf_logis mu h).running x]
  rw [← logis_form]
  exact (c.mono (by norm_num) (by norm_num)).absAcc

theorem C49_pcauchy (x mu : ℝ) {sigma : ℝ} (h : 0 < sigma) :
    AbsAcc u 6 1 (pcauchy (fin x) (fin mu) (fin sigma) false) (∫ t in Set.Iic x, cauchyPdf mu sigma t) := by
  have hpi := Real.pi_pos
  have z := ((relF_sub (u := u) x mu).div (RelF.lift sigma) h.ne').atan.div relF_pi hpi.ne'
  have m : |Real.arctan ((x - mu) / sigma) / Real.pi| ≤ 1 / 2 := by
    rw [abs_div, abs_of_pos hpi, div_le_iff₀ hpi]
    exact abs_le.2 ⟨by linarith [Real.neg_pi_div_two_lt_arctan ((x - mu) / sigma)],
      by linarith [Real.arctan_lt_pi_div_two ((x - mu) / sigma)]⟩
  have c := (relF_half (u := u)).off.add (z.off.mono le_rfl m)
  have hv : pcauchy (fin x) (fin mu) (fin sigma) false = pcauchy_compute ((fin x - fin mu) / fin sigma) := by
    have h0 : ¬ sigma < 0 := by linarith
    simp [pcauchy, cauchy_ok', cauchy_ok, log_if, h0]
  rw [hv, (isCdf_cauchy mu h).running x]
  exact (c.mono (by norm_num) (by norm_num)).absAcc

/-- `exp(-w)` for `w ≥ 0` known up to roundings -/
theorem RelF.exp_neg {k w : ℝ} {f : Fl} (h : RelF u k (-w) f) (hw : 0 ≤ w) :
    OffF u (k + 1) 1 (Real.exp (-w)) (Fl.exp f) := by
  obtain ⟨hk, y, rfl, h⟩ := h
  obtain ⟨v, ev, hv⟩ := R.exp y
  have hn := h.neg
  rw [neg_neg] at hn
  have h2 := hn.concave R.u_nonneg R.u_lt hk concave_one_sub_exp
    (fun a _ b _ hab => by have := Real.exp_le_exp.2 (neg_le_neg hab); linarith) (by simp) hw
  have h3 := h2.off R.u_lt
  have hE := Real.exp_le_one_iff.2 (neg_nonpos.2 hw)
  have hE0 := Real.exp_pos (-w)
  have h4 : Off u k 1 (Real.exp (-w)) (Real.exp y) := by
    rw [Off, neg_neg] at h3
    rw [Off]
    have : 1 - Real.exp y - (1 - Real.exp (-w)) = -(Real.exp y - Real.exp (-w)) := by ring
    rw [this, abs_neg, abs_of_nonneg (by linarith : 0 ≤ 1 - Real.exp (-w))] at h3
    exact h3.trans (mul_le_mul_of_nonneg_left (by linarith) (gam_nonneg R.u_nonneg R.u_lt hk))
  have m : |Real.exp (-w)| ≤ 1 := by rw [abs_of_pos hE0]; exact hE
  exact ⟨by linarith, m, v, by rw [Fl.exp, ev, ofE_coe], h4.rnd R.u_nonneg R.u_lt hk m hv⟩

theorem C49_plaplace (x mu : ℝ) {sigma : ℝ} (h : 0 < sigma) :
    AbsAcc u 7 (3 / 2) (plaplace (fin x) (fin mu) (fin sigma) false) (∫ t in Set.Iic x, laplacePdf mu sigma t) := by
  have d := relF_sub (u := u) x mu
  have w := d.abs.neg.div (RelF.lift sigma) h.ne'
  rw [neg_div] at w
  have e := w.exp_neg (div_nonneg (abs_nonneg _) h.le)
  have o := (relF_one (u := u)).off.sub e
  obtain ⟨_, y, ey, hy⟩ := id d
  have hs : ∃ s : ℝ, sgn (fin x - fin mu) = fin s ∧ |s| ≤ 1 ∧
      laplaceCdf mu sigma x = 1 / 2 + 1 / 2 * s * (1 - Real.exp (-(|x - mu| / sigma))) := by
    rw [ey]
    rcases lt_trichotomy x mu with hx | rfl | hx
    · have hy' : y < 0 := by
        have := hy.neg.pos R.u_lt (by linarith); linarith
      refine ⟨-1, by rw [sgn, if_neg (by linarith), if_pos hy'], by norm_num, ?_⟩
      rw [laplaceCdf, if_pos hx, abs_of_neg (by linarith), neg_div, neg_neg]; ring
    · have hy' : y = 0 := by obtain ⟨t, _, _, e⟩ := hy; rw [e]; ring
      refine ⟨0, by rw [sgn, hy', if_neg (lt_irrefl _), if_neg (lt_irrefl _)], by norm_num, ?_⟩
      rw [laplaceCdf, if_neg (lt_irrefl _)]; norm_num
    · have hy' : 0 < y := hy.pos R.u_lt (by linarith)
      refine ⟨1, by rw [sgn, if_pos hy'], by norm_num, ?_⟩
      rw [laplaceCdf, if_neg (by linarith), abs_of_pos (by linarith)]; ring
  obtain ⟨s, es, ms, ec⟩ := hs
  have rs := RelF.lift (u := u) s
  rw [← es] at rs
  have c := (relF_half (u := u)).off.add (((relF_half (u := u)).mul rs).off.mul o)
  have hv : plaplace (fin x) (fin mu) (fin sigma) false = plaplace_compute (fin x - fin mu) (fin sigma) := by
    have h0 : ¬ sigma < 0 := by linarith
    have h1 : ¬ sigma = 0 := by linarith
    simp [plaplace, laplace_ok', laplace_ok, log_if, h0, h1]
  rw [hv, (isCdf_laplace mu h).running x, ec]
  refine (c.mono (by norm_num) ?_).absAcc
  rw [abs_one, abs_mul, abs_of_pos (by norm_num : (0 : ℝ) < 1 / 2)]
  linarith

/-! ### quantiles -/

theorem C49_qunif {a b p : ℝ} (h : a < b) (h0 : 0 < p) (h1 : p < 1) :
    ∃ q, (∫ t in Set.Iic q, unifPdf a b t) = p ∧
      AbsAcc u 3 (|a| + p * (b - a)) (qunif (fin p) (fin a) (fin b)) q := by
  have hb : 0 < b - a := by linarith
  refine ⟨a + p * (b - a), ?_, ?_⟩
  · rw [(isCdf_unif h).running, unifCdf, if_neg (by nlinarith), if_neg (by nlinarith)]
    field_simp
    ring
  · have c := (RelF.lift (u := u) a).off.add ((RelF.lift (u := u) p).mul (relF_sub b a)).off
    have hv : qunif (fin p) (fin a) (fin b) = fin a + fin p * (fin b - fin a) := by
      have n1 : ¬ b ≤ a := by linarith
      have n2 : ¬ p < 0 := by linarith
      have n3 : ¬ 1 < p := by linarith
      have n4 : ¬ p = 1 := by linarith
      simp [qunif, qunif_compute, unif_ok, prob_val_ok, n1, n2, n3, n4, h0.ne']
    rw [hv]
    refine (c.mono (by norm_num) ?_).absAcc
    rw [abs_of_pos (by positivity : 0 < p * (b - a))]
example : ∃ q, (∫ t in Set.Iic q, unifPdf 1 4 t) = (1 / 3) ∧
      AbsAcc u 3 (|1| + (1 / 3) * (4 - 1)) (qunif (fin (1 / 3)) (fin 1) (fin 4)) q :=
  C49_qunif (a := 1) (b := 4) (p := 1 / 3) (h := by meets) (h0 := by meets) (h1 := by meets)

/-- absolute only: `log(1-p)` loses the small `p`, see `C49_qexp_double_violated` -/
theorem C49_qexp {rate p : ℝ} (h : 0 < rate) (h0 : 0 < p) (h1 : p < 1) :
    ∃ q, (∫ t in Set.Iic q, expPdf rate t) = p ∧
      AbsAcc u 3 ((|Real.log (1 - p)| + 1) / rate) (qexp (fin p) (fin rate)) q := by
  have hp : 0 < 1 - p := by linarith
  have hl : 0 < -Real.log (1 - p) := by
    have := Real.log_neg hp (by linarith); linarith
  refine ⟨-Real.log (1 - p) / rate, ?_, ?_⟩
  · rw [(isCdf_exp h).running, if_pos (by positivity), show -rate * (-Real.log (1 - p) / rate) = Real.log (1 - p) by
      field_simp, Real.exp_log hp]
    ring
  · have c := ((relF_one_sub (u := u) p).log hp).neg.div (RelF.lift rate) h.ne'
    have hv : qexp (fin p) (fin rate) = -log (1 - fin p) / fin rate := by
      have n1 : ¬ rate < 0 := by linarith
      have n2 : ¬ p < 0 := by linarith
      have n3 : ¬ 1 < p := by linarith
      have n4 : ¬ p = 1 := by linarith
      simp [qexp, qexp_compute, exp_ok, prob_val_ok, n1, n2, n3, n4, h0.ne']
    rw [hv]
    refine (c.mono (by norm_num) ?_).absAcc
    rw [abs_of_pos h]
example : ∃ q, (∫ t in Set.Iic q, expPdf 2 t) = (1 / 3) ∧
      AbsAcc u 3 ((|Real.log (1 - (1 / 3))| + 1) / 2) (qexp (fin (1 / 3)) (fin 2)) q :=
  C49_qexp (rate := 2) (p := 1 / 3) (h := by meets) (h0 := by meets) (h1 := by meets)

theorem C49_qlogis (mu : ℝ) {sigma p : ℝ} (h : 0 < sigma) (h0 : 0 < p) (h1 : p < 1) :
    ∃ q, (∫ t in Set.Iic q, logisPdf mu sigma t) = p ∧
      AbsAcc u 5 (|mu| + sigma * (|Real.log (p / (1 - p))| + 1)) (qlogis (fin p) (fin mu) (fin sigma)) q := by
  have hp : 0 < 1 - p := by linarith
  have hr : 0 < p / (1 - p) := by positivity
  refine ⟨mu + sigma * Real.log (p / (1 - p)), ?_, ?_⟩
  · rw [(isCdf_logis mu h).running]
    rw [show (mu + sigma * Real.log (p / (1 - p)) - mu) / sigma = Real.log (p / (1 - p)) by field_simp; ring,
      Real.exp_neg, Real.exp_log hr]
    field_simp
    ring
  · have c := (RelF.lift (u := u) mu).off.add ((RelF.lift (u := u) sigma).off.mul
      (((RelF.lift (u := u) p).div (relF_one_sub p) hp.ne').log hr))
    have hv : qlogis (fin p) (fin mu) (fin sigma) = fin mu + fin sigma * log (fin p / (1 - fin p)) := by
      have n1 : ¬ sigma < 0 := by linarith
      have n2 : ¬ p < 0 := by linarith
      have n3 : ¬ 1 < p := by linarith
      have n4 : ¬ p = 1 := by linarith
      simp [qlogis, qlogis_compute, logis_ok, prob_val_ok, n1, n2, n3, n4, h0.ne', h.ne']
    rw [hv]
    refine (c.mono (by norm_num) ?_).absAcc
    rw [abs_of_pos h]
example : ∃ q, (∫ t in Set.Iic q, logisPdf 3 2 t) = (1 / 3) ∧
      AbsAcc u 5 (|3| + 2 * (|Real.log ((1 / 3) / (1 - (1 / 3)))| + 1)) (qlogis (fin (1 / 3)) (fin 3) (fin 2)) q :=
  C49_qlogis (mu := 3) (sigma := 2) (p := 1 / 3) (h := by meets) (h0 := by meets) (h1 := by meets)

theorem relF_one_sub_two_abs {x : ℝ} (hx : Lib.rnd (2 * x) = ((2 * x : ℝ) : EReal)) :
    RelF u 1 (1 - 2 * |x|) (1 - 2 * abs (fin x)) := by
  have e : (2 : Fl) * abs (fin x) = fin (2 * |x|) := by
    rw [ofNat_eq]
    show ofE (Lib.rnd (2 * |x|)) = _
    rcases abs_choice x with h | h <;> rw [h]
    · rw [hx, ofE_coe]
    · rw [mul_neg, Lib.rnd_neg, hx]; rfl
  rw [e]
  exact relF_one_sub _

/-- only where `p - 1/2` and `2p - 1` are exact (every double in `[1/4, 1]`), see `C49_qlaplace_double_violated` -/
theorem C49_qlaplace_partial (mu : ℝ) {sigma p : ℝ} (h : 0 < sigma) (h0 : 0 < p) (h1 : p < 1)
    (hr : Lib.rnd (p - 1 / 2) = ((p - 1 / 2 : ℝ) : EReal))
    (hr2 : Lib.rnd (2 * (p - 1 / 2)) = ((2 * (p - 1 / 2) : ℝ) : EReal)) :
    ∃ q, (∫ t in Set.Iic q, laplacePdf mu sigma t) = p ∧
      AbsAcc u 6 (|mu| + sigma * (|Real.log (1 - 2 * |p - 1 / 2|)| + 1)) (qlaplace (fin p) (fin mu) (fin sigma)) q := by
  have e1 : fin p - half = fin (p - 1 / 2) := by
    show ofE (Lib.rnd (p - 1 / 2)) = _
    rw [hr, ofE_coe]
  have hi : 0 < 1 - 2 * |p - 1 / 2| := by
    have : |p - 1 / 2| < 1 / 2 := abs_lt.2 ⟨by linarith, by linarith⟩
    linarith
  have hi1 : 1 - 2 * |p - 1 / 2| ≤ 1 := by have := abs_nonneg (p - 1 / 2); linarith
  have hl := Real.log_nonpos hi.le hi1
  obtain ⟨s, es, ms, ec⟩ : ∃ s : ℝ, sgn (fin (p - 1 / 2)) = fin s ∧ |s| ≤ 1 ∧
      (∫ t in Set.Iic (mu - sigma * s * Real.log (1 - 2 * |p - 1 / 2|)), laplacePdf mu sigma t) = p := by
    rcases lt_trichotomy p (1 / 2) with hp | rfl | hp
    · refine ⟨-1, by rw [sgn, if_neg (by linarith), if_pos (by linarith)], by norm_num, ?_⟩
      have hn : 1 - 2 * |p - 1 / 2| = 2 * p := by rw [abs_of_neg (by linarith)]; ring
      have hlt : Real.log (2 * p) < 0 := Real.log_neg (by linarith) (by linarith)
      rw [(isCdf_laplace mu h).running, laplaceCdf, hn, if_pos (by nlinarith),
        show (mu - sigma * -1 * Real.log (2 * p) - mu) / sigma = Real.log (2 * p) by field_simp; ring,
        Real.exp_log (by linarith)]
      ring
    · refine ⟨0, by rw [sgn, if_neg (by norm_num), if_neg (by norm_num)], by norm_num, ?_⟩
      rw [(isCdf_laplace mu h).running, laplaceCdf, if_neg (by simp)]
      norm_num
    · refine ⟨1, by rw [sgn, if_pos (by linarith)], by norm_num, ?_⟩
      have hn : 1 - 2 * |p - 1 / 2| = 2 * (1 - p) := by rw [abs_of_pos (by linarith)]; ring
      rw [hn] at hl
      rw [(isCdf_laplace mu h).running, laplaceCdf, hn, if_neg (by nlinarith),
        show -((mu - sigma * 1 * Real.log (2 * (1 - p)) - mu) / sigma) = Real.log (2 * (1 - p)) by field_simp; ring,
        Real.exp_log (by linarith)]
      ring
  refine ⟨_, ec, ?_⟩
  have rs := RelF.lift (u := u) s
  have c := (RelF.lift (u := u) mu).off.sub (((RelF.lift (u := u) sigma).mul rs).off.mul
    ((relF_one_sub_two_abs (u := u) hr2).log hi))
  have hv : qlaplace (fin p) (fin mu) (fin sigma) = qlaplace_compute (fin p) (fin mu) (fin sigma) := by
    have n1 : ¬ sigma < 0 := by linarith
    have n2 : ¬ p < 0 := by linarith
    have n3 : ¬ 1 < p := by linarith
    have n4 : ¬ p = 1 := by linarith
    simp [qlaplace, laplace_ok, prob_val_ok, n1, n2, n3, n4, h0.ne', h.ne']
  rw [hv, qlaplace_compute, e1, es]
  refine (c.mono (by norm_num) ?_).absAcc
  rw [abs_mul, abs_of_pos h]
  have hm := abs_nonneg (Real.log (1 - 2 * |p - 1 / 2|))
  have : sigma * |s| ≤ sigma := by nlinarith
  nlinarith

end Stats

/-! ### Instances: 53-bit arithmetic without a bound on the exponent. -/

namespace Stats.ExamplesC49
open Fl Spec

set_option warn.classDefReducibility false in
attribute [local instance] wideLib
attribute [local instance] wideLib_rel

example := C49_dnorm (u := 1 / 2 ^ 53) 1 0 (sigma := 2) (by norm_num)
example := C49_dlnorm (u := 1 / 2 ^ 53) (x := 3) (by norm_num) 0 (sigma := 2) (by norm_num)
example := C49_dunif (u := 1 / 2 ^ 53) (a := 0) (b := 3) (x := 1) (by norm_num) (by norm_num)
example := C49_dexp (u := 1 / 2 ^ 53) (rate := 3) (x := 1 / 3) (by norm_num) (by norm_num)
example := C49_dbeta (u := 1 / 2 ^ 53) (a := 2) (b := 3) (x := 1 / 3) (by norm_num) (by norm_num)
  (by have := Lib.rnd_half 10 (by norm_num); norm_num at this ⊢; exact this) (by norm_num)
example := C49_dchisq (u := 1 / 2 ^ 53) (dof := 3) (x := 1) (by norm_num)
  (by have := Lib.rnd_half 6 (by norm_num); norm_num at this ⊢; exact this) (by norm_num)
example := C49_dgamma (u := 1 / 2 ^ 53) (shape := 1 / 3) (scale := 2) (x := 5) (by norm_num)
  (Lib.eps_le.trans (by norm_num)) (by norm_num)
example := C49_dt (u := 1 / 2 ^ 53) (dof := 3) 1 (Lib.eps_le.trans (by norm_num))
  (by have := Lib.rnd_half 3 (by norm_num); norm_num at this ⊢; exact this)
  (by have := Lib.rnd_half 4 (by norm_num); norm_num at this ⊢)
example := C49_dpois (u := 1 / 2 ^ 53) (rate := 3) (by norm_num) 7 (by norm_num)
example := C49_dbinom (u := 1 / 2 ^ 53) (p := 1 / 3) (by norm_num) (by norm_num) (n := 5) (k := 2) (by norm_num) (by norm_num)
example := C49_pweibull (u := 1 / 2 ^ 53) (shape := 2) (scale := 3) (x := 1) (Lib.eps_le.trans (by norm_num))
  (Lib.eps_le.trans (by norm_num)) (Lib.eps_le.trans (by norm_num))
example := C49_qweibull (u := 1 / 2 ^ 53) (shape := 2) (scale := 3) (p := 1 / 3) (Lib.eps_le.trans (by norm_num))
  (Lib.eps_le.trans (by norm_num)) (by have := Lib.rnd_half 1 (by norm_num); norm_num at this ⊢)
  (by norm_num) (by norm_num)
example := C49_pnorm (u := 1 / 2 ^ 53) 1 0 (sigma := 2) (by norm_num)
example := C49_qexp (u := 1 / 2 ^ 53) (rate := 3) (p := 1 / 3) (by norm_num) (by norm_num) (by norm_num)
example := C49_qlaplace_partial (u := 1 / 2 ^ 53) 1 (sigma := 3) (p := 3 / 4) (by norm_num) (by norm_num) (by norm_num)
  (by have := wideLib_rel.rnd_halve (1 / 2) (by have := Lib.rnd_half 1 (by norm_num); norm_num at this ⊢)
      norm_num at this ⊢; exact this)
  (by have := Lib.rnd_half 1 (by norm_num); norm_num at this ⊢)

/-- the bounds are small: seven roundings are off by less than `10^-15` -/
theorem gam_small : gam (1 / 2 ^ 53) 7 < 1 / 10 ^ 15 := by
  have h : (1 - 1 / 2 ^ 53 : ℝ) ^ (-(7 : ℝ)) = ((1 - 1 / 2 ^ 53) ^ 7)⁻¹ := by
    rw [Real.rpow_neg (by norm_num), show (7 : ℝ) = ((7 : ℕ) : ℝ) by norm_num, Real.rpow_natCast]
  rw [gam, h]
  norm_num

end Stats.ExamplesC49

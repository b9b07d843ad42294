import Verif.Props.C08D
import Verif.Props.C08E
import Verif.Props.C10
import Verif.Props.C12
import Verif.Props.C41
import Verif.Lemmas.Meets

/-!
# C04: no NaN from valid finite input

The distribution functions that are monotone for every rounding (`MonoLib`) are covered for every such library; the
densities and the remaining distribution functions in exact arithmetic. Exceptions are proved as `_violated`:
parameters in `(0, eps)` rejected by the checks, scale 0 for Cauchy and logistic, `dweibull(0, 1, ·)`, and `pinvgamma`.
Overflow in binary64 is in `C04F.lean`.
-/

set_option linter.unusedSectionVars false
open Classical
namespace Stats
open Fl Spec

/-- a number in both forms -/
def NoNan (f : Bool → Fl) : Prop := ∀ b, f b ≠ nan

theorem Spec.VanishesAt.noNan {f : Bool → Fl} (h : VanishesAt f) : NoNan f := by
  intro b; cases b
  · rw [h.1]; simp
  · rw [h.2]; simp

theorem Spec.IsPole.noNan {f : Bool → Fl} (h : IsPole f) : NoNan f := by
  intro b; cases b
  · rw [h.1]; simp
  · rw [h.2]; simp

theorem Spec.IsValue.noNan {f : Bool → Fl} {r : ℝ} (h : IsValue f r) : NoNan f := by
  intro b; cases b
  · rw [h.2.1]; simp
  · rw [h.2.2]; split_ifs <;> simp

theorem Spec.IsDensityOn.noNan {d : Fl → Bool → Fl} {f : ℝ → ℝ} {s : Set ℝ} (h : IsDensityOn d f s) {x : ℝ} (hx : x ∈ s) :
    NoNan (d (fin x)) := by
  intro b; cases b
  · rw [(h x hx).2.1]; simp
  · rw [(h x hx).2.2]; simp

section
variable [Lib]
theorem MonoCdf.noNan {p : Fl → Bool → Fl} (h : MonoCdf p) (x : ℝ) : NoNan (p (fin x)) := fun b =>
  ne_nan_of_le_left (h (fin x) (fin x) (by simp) b)
theorem MonoCdfZ.noNan {p : ℤ → Bool → Fl} (h : MonoCdfZ p) (x : ℤ) : NoNan (p x) := fun b =>
  ne_nan_of_le_left (h x x le_rfl b)
end

/-! ## Distribution functions, every library with monotone functions -/

section mono
variable [Lib] [MonoLib]

theorem C04_pnorm (x mu : ℝ) {sigma : ℝ} (hs : 0 ≤ sigma) : NoNan (pnorm (fin x) (fin mu) (fin sigma)) :=
  (C10_pnorm mu hs).noNan x
example : NoNan (pnorm (fin (1 / 2)) (fin 3) (fin 2)) :=
  C04_pnorm (x := 1 / 2) (mu := 3) (sigma := 2) (hs := by meets)
theorem C04_plnorm (x mu : ℝ) {sigma : ℝ} (hs : 0 ≤ sigma) : NoNan (plnorm (fin x) (fin mu) (fin sigma)) :=
  (C10_plnorm mu hs).noNan x
example : NoNan (plnorm (fin (1 / 2)) (fin 3) (fin 2)) :=
  C04_plnorm (x := 1 / 2) (mu := 3) (sigma := 2) (hs := by meets)
theorem C04_plaplace (x mu : ℝ) {sigma : ℝ} (hs : 0 ≤ sigma) : NoNan (plaplace (fin x) (fin mu) (fin sigma)) :=
  (C10_plaplace mu hs).noNan x
example : NoNan (plaplace (fin (1 / 2)) (fin 3) (fin 2)) :=
  C04_plaplace (x := 1 / 2) (mu := 3) (sigma := 2) (hs := by meets)
/-- missing: scale 0, see `C04_pcauchy_violated` -/
theorem C04_pcauchy_partial (x mu : ℝ) {sigma : ℝ} (hs : 0 < sigma) : NoNan (pcauchy (fin x) (fin mu) (fin sigma)) :=
  (C10_pcauchy_partial mu hs).noNan x
example : NoNan (pcauchy (fin (1 / 2)) (fin 3) (fin 2)) :=
  C04_pcauchy_partial (x := 1 / 2) (mu := 3) (sigma := 2) (hs := by meets)
theorem C04_pbeta (x : ℝ) {a b : ℝ} (ha : 0 ≤ a) (hb : 0 ≤ b) : NoNan (pbeta (fin x) (fin a) (fin b)) :=
  (C10_pbeta ha hb).noNan x
example : NoNan (pbeta (fin (1 / 2)) (fin 1) (fin 4)) :=
  C04_pbeta (x := 1 / 2) (a := 1) (b := 4) (ha := by meets) (hb := by meets)
/-- missing: `0 < scale < eps`, see `C04_gamma_violated` -/
theorem C04_pgamma_partial (x : ℝ) {shape scale : ℝ} (hk : 0 ≤ shape) (hs : Lib.eps ≤ scale) :
    NoNan (pgamma (fin x) (fin shape) (fin scale)) := (C10_pgamma hk hs).noNan x
example : NoNan (pgamma (fin (1 / 2)) (fin 3) (fin 2)) :=
  C04_pgamma_partial (x := 1 / 2) (shape := 3) (scale := 2) (hk := by meets) (hs := by meets)
/-- missing: parameters in `(0, eps)`, see `C04_weibull_violated` -/
theorem C04_pweibull_partial (x : ℝ) {shape scale : ℝ} (hk : Lib.eps ≤ shape) (hs : Lib.eps ≤ scale) :
    NoNan (pweibull (fin x) (fin shape) (fin scale)) := (C10_pweibull hk hs).noNan x
example : NoNan (pweibull (fin (1 / 2)) (fin 3) (fin 2)) :=
  C04_pweibull_partial (x := 1 / 2) (shape := 3) (scale := 2) (hk := by meets) (hs := by meets)
theorem C04_pbern (x : ℤ) {p : ℝ} (h0 : 0 ≤ p) (h1 : p ≤ 1) : NoNan (pbern x (fin p)) := (C10_pbern h0 h1).noNan x
example : NoNan (pbern 2 (fin (1 / 3))) := C04_pbern (x := 2) (p := 1 / 3) (h0 := by meets) (h1 := by meets)
theorem C04_pradem (x : ℤ) {p : ℝ} (h0 : 0 ≤ p) (h1 : p ≤ 1) : NoNan (pradem x (fin p)) :=
  (C10_pradem h0 h1).noNan x
example : NoNan (pradem 2 (fin (1 / 3))) := C04_pradem (x := 2) (p := 1 / 3) (h0 := by meets) (h1 := by meets)

theorem C04_pexp (x : ℝ) {rate : ℝ} (h : 0 ≤ rate) : NoNan (pexp (fin x) (fin rate)) := by
  rcases h.eq_or_lt with rfl | h
  · have key : pexp_compute (fin x) (fin 0) ≠ nan := by
      rw [pexp_compute]; split_ifs
      · simp
      · simp
      · simp only [neg_fin, neg_zero, fin_mul_fin, zero_mul, rnd_zero, ofE_zero, expm1]
        induction Lib.expm1 0 <;> simp
    have h9 := (C09_pexp (fin x) (fin 0)).1
    have hp (b : Bool) : pexp (fin x) (fin 0) b = log_if (pexp_compute (fin x) (fin 0)) b := by
      simp [pexp, exp_ok', exp_ok]
    intro b
    rw [hp] at h9 ⊢
    cases b
    · exact key
    · rcases h9 with h9 | ⟨r, hr, h0, _⟩
      · exact absurd h9 key
      · rw [log_if_false] at hr
        rw [log_if_true, hr, log_fin, if_neg (not_lt.2 h0)]; split_ifs <;> simp [ofE_ne_nan]
  · exact (C10_pexp_partial h).noNan x
example : NoNan (pexp (fin (1 / 2)) (fin 2)) := C04_pexp (x := 1 / 2) (rate := 2) (h := by meets)

end mono

/-! ## Parameters that are valid but rejected -/

section rejected
variable [Lib]

/-- Every scale in `(0, eps)` is rejected by all gamma functions. -/
theorem C04_gamma_violated {shape scale : ℝ} (h : scale < Lib.eps) (x : Fl) (b : Bool) :
    dgamma x (fin shape) (fin scale) b = nan ∧ pgamma x (fin shape) (fin scale) b = nan ∧
    qgamma x (fin shape) (fin scale) = nan := by
  simp [dgamma, pgamma, qgamma, gamma_ok', gamma_ok, eps, h]

theorem C04_weibull_violated {shape scale : ℝ} (h : shape < Lib.eps ∨ scale < Lib.eps) (x : Fl) (b : Bool) :
    dweibull x (fin shape) (fin scale) b = nan ∧ pweibull x (fin shape) (fin scale) b = nan ∧
    qweibull x (fin shape) (fin scale) = nan := by
  rcases h with h | h <;> simp [dweibull, pweibull, qweibull, weibull_ok', weibull_ok, eps, h]
example : dweibull (fin (1 / 2)) (fin 0) (fin 2) true = nan ∧ pweibull (fin (1 / 2)) (fin 0) (fin 2) true = nan ∧
    qweibull (fin (1 / 2)) (fin 0) (fin 2) = nan :=
  C04_weibull_violated (shape := 0) (scale := 2) (h := by meets) (x := fin (1 / 2)) (b := true)

theorem C04_f_violated {d1 d2 : ℝ} (h : d1 < Lib.eps ∨ d2 < Lib.eps) (x : Fl) (b : Bool) :
    df x (fin d1) (fin d2) b = nan ∧ pf x (fin d1) (fin d2) b = nan ∧ qf x (fin d1) (fin d2) = nan := by
  rcases h with h | h <;> simp [df, pf, qf, f_ok', f_ok, eps, h]

theorem C04_t_violated {dof : ℝ} (h : dof < Lib.eps) (x : Fl) (b : Bool) :
    dt x (fin dof) b = nan ∧ pt x (fin dof) b = nan ∧ qt x (fin dof) = nan := by
  simp [dt, pt, qt, t_ok', t_ok, eps, h]
example : dt (fin (1 / 2)) (fin 0) true = nan ∧ pt (fin (1 / 2)) (fin 0) true = nan ∧ qt (fin (1 / 2)) (fin 0) = nan :=
  C04_t_violated (dof := 0) (h := by meets) (x := fin (1 / 2)) (b := true)

/-- Such parameters exist and are in the documented domain. -/
theorem C04_tiny_valid : ∃ r : ℝ, 0 < r ∧ r < Lib.eps ∧ TwoPos (fin r) (fin r) ∧ ShapeScale (fin 1) (fin r) := by
  have he := Lib.eps_pos
  have h : Pos (fin (Lib.eps / 2)) := ⟨((Lib.eps / 2 : ℝ) : EReal), by exact_mod_cast half_pos he, by simp⟩
  exact ⟨Lib.eps / 2, half_pos he, half_lt_self he, ⟨h, h⟩, ⟨((1 : ℝ) : EReal), by norm_num, by simp⟩, h⟩

theorem C04_pcauchy_violated (mu : ℝ) (b : Bool) : pcauchy (fin mu) (fin mu) (fin 0) b = nan :=
  C41_pcauchy_violated mu b
theorem C04_dcauchy_violated (x mu : ℝ) (b : Bool) : dcauchy (fin x) (fin mu) (fin 0) b = nan :=
  C41_dcauchy_violated x mu b
theorem C04_dlogis_violated (x mu : ℝ) (b : Bool) : dlogis (fin x) (fin mu) (fin 0) b = nan :=
  C41_dlogis_violated x mu b

/-- The exponential density at 0 with shape 1: NaN for every admissible scale. -/
theorem C04_dweibull_violated {scale : ℝ} (hs : Lib.eps ≤ scale) (b : Bool) :
    dweibull (fin 0) (fin 1) (fin scale) b = nan := by
  have he := Lib.eps_le
  have hp := Lib.eps_pos
  have h1 : ¬ (1 : ℝ) < Lib.eps := by linarith
  have h2 : scale ≠ 0 := by linarith
  have : dweibull_log_compute (fin 0 / fin scale) (fin 1) (fin scale) = nan := by
    have e1 : fin 0 / fin scale = fin 0 := by rw [fin_div_fin, if_neg h2]; simp
    have e2 : fin 1 - 1 = fin 0 := by rw [one_eq, fin_sub_fin]; simp
    rw [e1, dweibull_log_compute, e2, show log (fin 0) = ninf by simp [log_fin], fin_mul_ninf, if_pos rfl]
    cases log (fin 1 / fin scale) <;> simp [sub_def]
  cases b <;> simp [dweibull, weibull_ok', weibull_ok, eps, h1, not_lt.2 hs, this]
example : dweibull (fin 0) (fin 1) (fin 2) true = nan :=
  C04_dweibull_violated (scale := 2) (hs := by meets) (b := true)

/-- `pinvgamma` at 0 with rate 0. -/
theorem C04_pinvgamma_zero_violated {shape : ℝ} (h : 0 ≤ shape) (b : Bool) :
    pinvgamma (fin 0) (fin shape) (fin 0) b = nan := by
  cases b <;> simp [pinvgamma, invgamma_ok', invgamma_ok, not_lt.2 h, pinvgamma_limit_vals, pinvgamma_compute, pgamma,
    gamma_ok', gamma_ok, sub_def]
example : pinvgamma (fin 0) (fin 3) (fin 0) true = nan :=
  C04_pinvgamma_zero_violated (shape := 3) (h := by meets) (b := true)

end rejected

/-! ## Exact arithmetic -/

variable [Lib] [Ideal]

/-- `pinvgamma` with a rate above `1/eps`. -/
theorem C04_pinvgamma_violated {shape rate : ℝ} (h : 0 ≤ shape) (hr : 1 < rate * Lib.eps) (x : ℝ) (hx : 0 ≤ x)
    (b : Bool) : pinvgamma (fin x) (fin shape) (fin rate) b = nan := by
  have he := Lib.eps_pos
  have hr0 : 0 < rate := by
    by_contra hc
    have := mul_nonpos_of_nonpos_of_nonneg (not_lt.1 hc) he.le
    linarith
  have hc : 1 / rate < Lib.eps := by rw [div_lt_iff₀ hr0]; linarith
  have key (y : Fl) : pgamma y (fin shape) (fin (1 / rate)) false = nan := (C04_gamma_violated hc y false).2.1
  have h1 : (1 : Fl) / fin rate = fin (1 / rate) := by rw [one_eq, ifin_div _ hr0.ne']
  have h0 : ¬ rate < 0 := by linarith
  rw [pinvgamma, if_neg (by simp [invgamma_ok', invgamma_ok, h, hr0.le]), if_neg (by simpa using hx),
    pinvgamma_limit_vals, if_neg (by simpa using hr0.ne'), if_neg (by simp), h1, pinvgamma_compute, key]
  cases b <;> simp [sub_def]

theorem C04_punif (x : ℝ) {a b : ℝ} (h : a < b) : NoNan (punif (fin x) (fin a) (fin b)) :=
  (C10_punif_exact h).noNan x
example : NoNan (punif (fin (1 / 2)) (fin 1) (fin 4)) := C04_punif (x := 1 / 2) (a := 1) (b := 4) (h := by meets)
theorem C04_plogis (x mu : ℝ) {sigma : ℝ} (hs : 0 ≤ sigma) : NoNan (plogis (fin x) (fin mu) (fin sigma)) :=
  (C10_plogis_exact mu hs).noNan x
example : NoNan (plogis (fin (1 / 2)) (fin 3) (fin 2)) :=
  C04_plogis (x := 1 / 2) (mu := 3) (sigma := 2) (hs := by meets)
/-- missing: rate 0 at `x = 0`, and rates above `1/eps` -/
theorem C04_pinvgamma_partial (x : ℝ) {shape rate : ℝ} (hk : 0 ≤ shape) (hr : 0 < rate) (hr' : rate * Lib.eps ≤ 1) :
    NoNan (pinvgamma (fin x) (fin shape) (fin rate)) := (C10_pinvgamma_exact_partial hk hr hr').noNan x
example : NoNan (pinvgamma (fin (1 / 2)) (fin 3) (fin 2)) :=
  C04_pinvgamma_partial (x := 1 / 2) (shape := 3) (rate := 2) (hk := by meets) (hr := by meets) (hr' := by meets)
theorem C04_pchisq (x : ℝ) {dof : ℝ} (h : 0 ≤ dof) : NoNan (pchisq (fin x) (fin dof)) := (C10_pchisq_exact h).noNan x
example : NoNan (pchisq (fin (1 / 2)) (fin 4)) := C04_pchisq (x := 1 / 2) (dof := 4) (h := by meets)
/-- missing: `0 < dof < eps`, see `C04_t_violated` -/
theorem C04_pt_partial (x : ℝ) {dof : ℝ} (h : Lib.eps ≤ dof) : NoNan (pt (fin x) (fin dof)) := (C10_pt h).noNan x
example : NoNan (pt (fin (1 / 2)) (fin 4)) := C04_pt_partial (x := 1 / 2) (dof := 4) (h := by meets)
/-- missing: degrees of freedom in `(0, eps)`, see `C04_f_violated` -/
theorem C04_pf_partial (x : ℝ) {d1 d2 : ℝ} (h1 : Lib.eps ≤ d1) (h2 : Lib.eps ≤ d2) :
    NoNan (pf (fin x) (fin d1) (fin d2)) := (C10_pf h1 h2).noNan x
example : NoNan (pf (fin (1 / 2)) (fin 3) (fin 5)) :=
  C04_pf_partial (x := 1 / 2) (d1 := 3) (d2 := 5) (h1 := by meets) (h2 := by meets)
theorem C04_pinvgauss (x : ℝ) {mu lambda : ℝ} (hm : 0 ≤ mu) (hl : 0 ≤ lambda) :
    NoNan (pinvgauss (fin x) (fin mu) (fin lambda)) := by
  by_cases h : mu = 0 ∨ lambda = 0
  · exact (C10_pinvgauss_degenerate hm hl h).noNan x
  · push Not at h
    exact (C10_pinvgauss (lt_of_le_of_ne hm h.1.symm) (lt_of_le_of_ne hl h.2.symm)).noNan x
example : NoNan (pinvgauss (fin (1 / 2)) (fin 3) (fin 2)) :=
  C04_pinvgauss (x := 1 / 2) (mu := 3) (lambda := 2) (hm := by meets) (hl := by meets)
theorem C04_pbinom (x : ℤ) (n : ℕ) {p : ℝ} (h0 : 0 ≤ p) (h1 : p ≤ 1) : NoNan (pbinom x n (fin p)) :=
  (C10_pbinom n h0 h1).noNan x
example : NoNan (pbinom 2 5 (fin (1 / 3))) :=
  C04_pbinom (x := 2) (n := 5) (p := 1 / 3) (h0 := by meets) (h1 := by meets)
theorem C04_ppois (x : ℤ) {rate : ℝ} (h : 0 ≤ rate) : NoNan (ppois x (fin rate)) := (C10_ppois h).noNan x
example : NoNan (ppois 2 (fin 2)) := C04_ppois (x := 2) (rate := 2) (h := by meets)

/-! ### densities -/

theorem C04_dnorm (x mu : ℝ) {sigma : ℝ} (hs : 0 ≤ sigma) : NoNan (dnorm (fin x) (fin mu) (fin sigma)) := by
  rcases hs.eq_or_lt with rfl | hs
  · by_cases h : x = mu
    · subst h; exact (C41_dnorm x).1.noNan
    · exact ((C41_dnorm mu).2 (fin x) (by simp) (by simpa using h)).noNan
  · exact (C08_dnorm mu hs).noNan trivial
example : NoNan (dnorm (fin (1 / 2)) (fin 3) (fin 2)) :=
  C04_dnorm (x := 1 / 2) (mu := 3) (sigma := 2) (hs := by meets)

theorem C04_dlnorm (x mu : ℝ) {sigma : ℝ} (hs : 0 ≤ sigma) : NoNan (dlnorm (fin x) (fin mu) (fin sigma)) := by
  rcases lt_trichotomy x 0 with hx | rfl | hx
  · exact (C05_dlnorm (outside_Ici_fin hx) mu sigma hs).noNan
  · exact (C05_dlnorm_zero mu sigma hs).noNan
  · rcases hs.eq_or_lt with rfl | hs
    · exact (C41_dlnorm_violated mu hx).noNan
    · exact (C08_dlnorm mu hs).noNan hx
example : NoNan (dlnorm (fin (1 / 2)) (fin 3) (fin 2)) :=
  C04_dlnorm (x := 1 / 2) (mu := 3) (sigma := 2) (hs := by meets)

theorem C04_dunif (x : ℝ) {a b : ℝ} (h : a < b) : NoNan (dunif (fin x) (fin a) (fin b)) := by
  by_cases hx : x ∈ Set.Icc a b
  · exact (C08_dunif h).noNan hx
  · exact (C05_dunif h ⟨by simp, fun r hr c => by injection c with c; subst c; exact hx hr⟩).noNan
example : NoNan (dunif (fin (1 / 2)) (fin 1) (fin 4)) := C04_dunif (x := 1 / 2) (a := 1) (b := 4) (h := by meets)

theorem C04_dexp (x : ℝ) {rate : ℝ} (h : 0 ≤ rate) : NoNan (dexp (fin x) (fin rate)) := by
  by_cases hx : x < 0
  · exact ((C05_dexp_partial (outside_Ici_fin hx) h).1 (by simp)).noNan
  · rcases h.eq_or_lt with rfl | h
    · intro b
      cases b <;> simp [dexp, exp_ok', exp_ok, hx, dexp_log_compute, log_fin, fin_mul_fin, sub_def]
    · exact (C08_dexp h).noNan (not_lt.1 hx)
example : NoNan (dexp (fin (1 / 2)) (fin 2)) := C04_dexp (x := 1 / 2) (rate := 2) (h := by meets)

/-- missing: scale 0, see `C04_dcauchy_violated` -/
theorem C04_dcauchy_partial (x mu : ℝ) {sigma : ℝ} (hs : 0 < sigma) : NoNan (dcauchy (fin x) (fin mu) (fin sigma)) :=
  (C08_dcauchy mu hs).noNan trivial
example : NoNan (dcauchy (fin (1 / 2)) (fin 3) (fin 2)) :=
  C04_dcauchy_partial (x := 1 / 2) (mu := 3) (sigma := 2) (hs := by meets)

theorem C04_dlaplace (x mu : ℝ) {sigma : ℝ} (hs : 0 ≤ sigma) : NoNan (dlaplace (fin x) (fin mu) (fin sigma)) := by
  rcases hs.eq_or_lt with rfl | hs
  · by_cases h : x = mu
    · subst h; exact (C41_dlaplace x).1.noNan
    · exact ((C41_dlaplace mu).2 (fin x) (by simp) (by simpa using h)).noNan
  · exact (C08_dlaplace mu hs).noNan trivial
example : NoNan (dlaplace (fin (1 / 2)) (fin 3) (fin 2)) :=
  C04_dlaplace (x := 1 / 2) (mu := 3) (sigma := 2) (hs := by meets)

/-- missing: scale 0, see `C04_dlogis_violated` -/
theorem C04_dlogis_partial (x mu : ℝ) {sigma : ℝ} (hs : 0 < sigma) : NoNan (dlogis (fin x) (fin mu) (fin sigma)) :=
  (C08_dlogis mu hs).noNan trivial
example : NoNan (dlogis (fin (1 / 2)) (fin 3) (fin 2)) :=
  C04_dlogis_partial (x := 1 / 2) (mu := 3) (sigma := 2) (hs := by meets)

theorem C04_dbeta (x : ℝ) {a b : ℝ} (ha : 0 ≤ a) (hb : 0 ≤ b) : NoNan (dbeta (fin x) (fin a) (fin b)) := by
  by_cases hx : x ∈ Set.Icc (0 : ℝ) 1
  swap
  · exact (C05_dbeta ⟨by simp, fun r hr c => by injection c with c; subst c; exact hx hr⟩ a b ha hb).noNan
  have hok : beta_ok' (fin x) (fin a) (fin b) := by simp [beta_ok', beta_ok, ha, hb]
  have hin : ¬ (fin x < 0 ∨ fin x > 1) := by simpa using hx
  by_cases h0 : a = 0 ∨ b = 0
  · have : dbeta (fin x) (fin a) (fin b) = log_if (dbeta_limit_vals (fin x) (fin a) (fin b)) := by
      funext c
      rw [dbeta, if_neg (not_not.2 hok), if_neg hin, if_pos (by simpa using h0)]
    rw [this]
    have hl : dbeta_limit_vals (fin x) (fin a) (fin b) = pinf ∨ dbeta_limit_vals (fin x) (fin a) (fin b) = fin 0 := by
      rw [dbeta_limit_vals]; split_ifs <;> simp
    intro c
    rcases hl with hl | hl <;> rw [hl] <;> cases c <;> simp [log_fin, log]
  · push Not at h0
    have ha' := lt_of_le_of_ne ha h0.1.symm
    have hb' := lt_of_le_of_ne hb h0.2.symm
    by_cases hi : x ∈ Set.Ioo (0 : ℝ) 1
    · exact (C08_dbeta ha' hb').noNan hi
    · have hc : ¬ (fin a ==. 0 ∨ fin b ==. 0 ∨ (isPosinf (fin a) ∨ isPosinf (fin b))) := by simp [h0]
      have : x = 0 ∨ x = 1 := by
        by_contra hne; push Not at hne
        exact hi ⟨lt_of_le_of_ne hx.1 hne.1.symm, lt_of_le_of_ne hx.2 hne.2⟩
      intro c
      rw [dbeta, if_neg (not_not.2 hok), if_neg hin, if_neg hc]
      rcases this with rfl | rfl
      · rw [if_pos (by simp)]
        split_ifs <;> cases c <;> simp [log_fin, not_lt.2 hb, h0, ofE_ne_nan]
      · rw [if_neg (by simp), if_pos (by simp)]
        split_ifs <;> cases c <;> simp [log_fin, not_lt.2 ha, h0, ofE_ne_nan]
example : NoNan (dbeta (fin (1 / 2)) (fin 1) (fin 4)) :=
  C04_dbeta (x := 1 / 2) (a := 1) (b := 4) (ha := by meets) (hb := by meets)

/-- missing: `0 < scale < eps`, see `C04_gamma_violated` -/
theorem C04_dgamma_partial (x : ℝ) {shape scale : ℝ} (hk : 0 ≤ shape) (hs : Lib.eps ≤ scale) :
    NoNan (dgamma (fin x) (fin shape) (fin scale)) := by
  have hs0 := Lib.eps_pos.trans_le hs
  rcases lt_trichotomy x 0 with hx | rfl | hx
  · exact (C05_dgamma (outside_Ici_fin hx) shape scale hk hs).noNan
  · have : dgamma (fin 0) (fin shape) (fin scale) = log_if (dgamma_limit_vals (fin 0) (fin shape) (fin scale)) := by
      funext b; simp [dgamma, gamma_ok', gamma_ok, eps, hk, hs]
    rw [this]
    have hp : 0 < 1 / scale := by positivity
    intro b
    rw [dgamma_limit_vals]
    split_ifs <;> cases b <;> simp [ifin_div _ hs0.ne', log_fin, ofE_ne_nan, log, hs0.le, not_lt.2 hs0.le, hs0.ne']
  · rcases hk.eq_or_lt with rfl | hk
    · exact ((C41_dgamma hs).2 (fin x) (by simp) (by simpa using hx.ne')).noNan
    · exact (C08_dgamma hk hs).noNan hx
example : NoNan (dgamma (fin (1 / 2)) (fin 3) (fin 2)) :=
  C04_dgamma_partial (x := 1 / 2) (shape := 3) (scale := 2) (hk := by meets) (hs := by meets)

theorem C04_dinvgamma (x : ℝ) {shape rate : ℝ} (hk : 0 ≤ shape) (hr : 0 ≤ rate) :
    NoNan (dinvgamma (fin x) (fin shape) (fin rate)) := by
  have hok : invgamma_ok' (fin x) (fin shape) (fin rate) := by simp [invgamma_ok', invgamma_ok, hk, hr]
  by_cases hx : x < 0
  · exact (C05_dinvgamma_partial (outside_Ici_fin hx) hk hr (Or.inl (by simp))).noNan
  by_cases h0 : x = 0 ∨ shape = 0
  · intro b
    rw [dinvgamma, if_neg (not_not.2 hok), if_neg (by simpa using hx), if_pos (by simpa using h0),
      dinvgamma_limit_vals]
    split_ifs <;> cases b <;> simp [log_fin, log]
  · have hx' : 0 < x := lt_of_le_of_ne (not_lt.1 hx) (fun c => h0 (Or.inl c.symm))
    have hk' : 0 < shape := lt_of_le_of_ne hk (fun c => h0 (Or.inr c.symm))
    rcases hr.eq_or_lt with rfl | hr'
    · intro b
      rw [dinvgamma, if_neg (not_not.2 hok), if_neg (by simpa using hx), if_neg (by simpa using h0), if_pos (by simp)]
      cases b <;> simp
    · exact (C08_dinvgamma hk' hr').noNan hx'
example : NoNan (dinvgamma (fin (1 / 2)) (fin 3) (fin 2)) :=
  C04_dinvgamma (x := 1 / 2) (shape := 3) (rate := 2) (hk := by meets) (hr := by meets)

theorem C04_dinvgauss (x : ℝ) {mu lambda : ℝ} (hm : 0 ≤ mu) (hl : 0 ≤ lambda) :
    NoNan (dinvgauss (fin x) (fin mu) (fin lambda)) := by
  have hok : invgauss_ok' (fin x) (fin mu) (fin lambda) := by simp [invgauss_ok', invgauss_ok, hm, hl]
  by_cases hx : x < 0
  · exact (C05_dinvgauss (outside_Ici_fin hx) mu lambda hm hl).noNan
  by_cases h0 : x = 0 ∨ lambda = 0
  · intro b
    rw [dinvgauss, if_neg (not_not.2 hok), if_neg (by simpa using hx), if_pos (by simpa using h0),
      dinvgauss_limit_vals]
    split_ifs <;> cases b <;> simp [log_fin, log]
  · have hx' : 0 < x := lt_of_le_of_ne (not_lt.1 hx) (fun c => h0 (Or.inl c.symm))
    have hl' : 0 < lambda := lt_of_le_of_ne hl (fun c => h0 (Or.inr c.symm))
    rcases hm.eq_or_lt with rfl | hm'
    · have h2 : dinvgauss_log_compute_term_2 (fin x) (fin x - fin 0) (fin 0) (fin lambda) = ninf := by
        have : ¬ 0 < -(lambda * (x * x)) := by have : 0 < lambda * (x * x) := by positivity
                                               linarith
        simp [dinvgauss_log_compute_term_2, ideal, fin_div_fin, hl'.ne', hx'.ne', this]
      intro b
      rw [dinvgauss, if_neg (not_not.2 hok), if_neg (by simpa using hx), if_neg (by simpa using h0),
        dinvgauss_log_compute, h2]
      simp only [dinvgauss_log_compute_term_1, ideal, ilog hx', ilog hl']
      cases b <;> simp [exp]
    · exact (C08_dinvgauss hm' hl').noNan hx'
example : NoNan (dinvgauss (fin (1 / 2)) (fin 3) (fin 2)) :=
  C04_dinvgauss (x := 1 / 2) (mu := 3) (lambda := 2) (hm := by meets) (hl := by meets)

theorem C04_dchisq (x : ℝ) {dof : ℝ} (h : 0 ≤ dof) : NoNan (dchisq (fin x) (fin dof)) := by
  have hok : chisq_ok' (fin x) (fin dof) := by simp [chisq_ok', chisq_ok, h]
  rcases lt_trichotomy x 0 with hx | rfl | hx
  · exact (C05_dchisq (outside_Ici_fin hx) dof h).noNan
  · intro b
    rw [dchisq, if_neg (not_not.2 hok), if_neg (by simp), if_pos (by simp), dchisq_limit_vals]
    split_ifs <;> cases b <;> simp [log_fin, log, ofE_ne_nan]
  · rcases h.eq_or_lt with rfl | h
    · intro b
      rw [dchisq, if_neg (not_not.2 hok), if_neg (by simpa using hx.le), if_neg (by simpa using hx.ne'),
        if_neg (by simp)]
      simp only [dchisq_compute, ideal, ilog hx, Fl.lgamma, mul_zero, Ideal.lgamma_zero]
      cases b <;> simp [sub_def, exp]
    · exact (C08_dchisq h).noNan hx
example : NoNan (dchisq (fin (1 / 2)) (fin 4)) := C04_dchisq (x := 1 / 2) (dof := 4) (h := by meets)

/-- missing: degrees of freedom in `(0, eps)`, see `C04_f_violated` -/
theorem C04_df_partial (x : ℝ) {d1 d2 : ℝ} (h1 : Lib.eps ≤ d1) (h2 : Lib.eps ≤ d2) :
    NoNan (df (fin x) (fin d1) (fin d2)) := by
  rcases lt_trichotomy x 0 with hx | rfl | hx
  · exact (C05_df_partial (outside_Ici_fin hx) h1 h2 (Or.inl (by simp))).noNan
  · intro b
    rw [df, if_neg (by simp [f_ok', f_ok, eps, h1, h2]), if_neg (by simp), if_pos (by simp), df_limit_vals_x0]
    split_ifs <;> cases b <;> simp [log_fin, log, ofE_ne_nan]
  · exact (C08_df h1 h2).noNan hx
example : NoNan (df (fin (1 / 2)) (fin 3) (fin 5)) :=
  C04_df_partial (x := 1 / 2) (d1 := 3) (d2 := 5) (h1 := by meets) (h2 := by meets)

/-- missing: `0 < dof < eps`, see `C04_t_violated` -/
theorem C04_dt_partial (x : ℝ) {dof : ℝ} (h : Lib.eps ≤ dof) : NoNan (dt (fin x) (fin dof)) :=
  (C08_dt h).noNan trivial
example : NoNan (dt (fin (1 / 2)) (fin 4)) := C04_dt_partial (x := 1 / 2) (dof := 4) (h := by meets)

/-- missing: parameters in `(0, eps)` and `x = 0` with shape 1, see `C04_weibull_violated`,
`C04_dweibull_violated` -/
theorem C04_dweibull_partial (x : ℝ) {shape scale : ℝ} (hk : Lib.eps ≤ shape) (hs : Lib.eps ≤ scale)
    (h1 : x ≠ 0 ∨ shape ≠ 1) : NoNan (dweibull (fin x) (fin shape) (fin scale)) := by
  rcases lt_trichotomy x 0 with hx | rfl | hx
  · exact (C05_dweibull (outside_Ici_fin hx) shape scale hk hs).noNan
  · rcases C08_dweibull_zero_partial hk hs (h1.resolve_left (fun c => c rfl)) with ⟨r, h, _⟩ | ⟨h, _⟩
    · exact h.noNan
    · exact h.noNan
  · exact (C08_dweibull hk hs).noNan hx
example : NoNan (dweibull (fin (1 / 2)) (fin 3) (fin 2)) :=
  C04_dweibull_partial (x := 1 / 2) (shape := 3) (scale := 2) (hk := by meets) (hs := by meets) (h1 := by meets)

theorem C04_dbern (x : ℤ) {p : ℝ} (h0 : 0 ≤ p) (h1 : p ≤ 1) : NoNan (dbern x (fin p)) := (C08_dbern h0 h1 x).noNan
example : NoNan (dbern 2 (fin (1 / 3))) := C04_dbern (x := 2) (p := 1 / 3) (h0 := by meets) (h1 := by meets)
theorem C04_dradem (x : ℤ) {p : ℝ} (h0 : 0 ≤ p) (h1 : p ≤ 1) : NoNan (dradem x (fin p)) := (C08_dradem h0 h1 x).noNan
example : NoNan (dradem 2 (fin (1 / 3))) := C04_dradem (x := 2) (p := 1 / 3) (h0 := by meets) (h1 := by meets)
theorem C04_dbinom (x : ℤ) (n : ℕ) {p : ℝ} (h0 : 0 ≤ p) (h1 : p ≤ 1) : NoNan (dbinom x n (fin p)) :=
  (C08_dbinom n h0 h1 x).noNan
example : NoNan (dbinom 2 5 (fin (1 / 3))) :=
  C04_dbinom (x := 2) (n := 5) (p := 1 / 3) (h0 := by meets) (h1 := by meets)
theorem C04_dpois (x : ℤ) {rate : ℝ} (h : 0 ≤ rate) : NoNan (dpois x (fin rate)) := (C08_dpois h x).noNan
example : NoNan (dpois 2 (fin 2)) := C04_dpois (x := 2) (rate := 2) (h := by meets)

end Stats

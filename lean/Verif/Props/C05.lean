import Verif.Lemmas.Params
import Verif.Lemmas.Range
import Verif.Spec.Support
import Verif.Lemmas.Meets

/-!
# C05: the density vanishes outside the support (every rounding, every library)

Parameters are finite and accepted (for gamma, F, t and Weibull that means at least machine epsilon).
-/

set_option linter.unusedSectionVars false
open Classical
namespace Stats
open Fl Spec
variable [Lib]

theorem outside_univ {x : Fl} (h : Outside Set.univ x) : x = pinf ∨ x = ninf := by
  obtain ⟨h1, h2⟩ := h
  cases x with
  | fin r => exact absurd rfl (h2 r trivial)
  | _ => simp_all

theorem outside_ici {x : Fl} (h : Outside (Set.Ici 0) x) : x = pinf ∨ (x ≠ nan ∧ x < 0) := by
  obtain ⟨h1, h2⟩ := h
  cases x with
  | fin r =>
    right
    by_contra hc
    exact h2 r (by simpa using hc) rfl
  | _ => simp_all

theorem outside_icc {a b : ℝ} {x : Fl} (h : Outside (Set.Icc a b) x) : x ≠ nan ∧ (x < fin a ∨ x > fin b) := by
  obtain ⟨h1, h2⟩ := h
  refine ⟨h1, ?_⟩
  cases x with
  | fin r =>
    by_contra hc
    simp only [fin_lt_fin, not_or, gt_iff_lt, not_lt] at hc
    exact h2 r hc rfl
  | _ => simp_all

theorem C05_dnorm {x : Fl} (hx : Outside Set.univ x) (mu sigma : ℝ) (h : 0 ≤ sigma) :
    VanishesAt (dnorm x (fin mu) (fin sigma)) := by
  rcases outside_univ hx with rfl | rfl <;>
  constructor <;>
  simp [dnorm, norm_ok', norm_ok, h, dnorm_limit_vals, log_if]

theorem C05_dcauchy {x : Fl} (hx : Outside Set.univ x) (mu sigma : ℝ) (h : 0 ≤ sigma) :
    VanishesAt (dcauchy x (fin mu) (fin sigma)) := by
  rcases outside_univ hx with rfl | rfl <;>
  constructor <;>
  simp [dcauchy, cauchy_ok', cauchy_ok, h, dcauchy_limit_vals, log_if]

theorem C05_dlaplace {x : Fl} (hx : Outside Set.univ x) (mu sigma : ℝ) (h : 0 ≤ sigma) :
    VanishesAt (dlaplace x (fin mu) (fin sigma)) := by
  rcases outside_univ hx with rfl | rfl <;>
  constructor <;>
  simp [dlaplace, laplace_ok', laplace_ok, h, dlaplace_limit_vals, log_if]

theorem C05_dlogis {x : Fl} (hx : Outside Set.univ x) (mu sigma : ℝ) (h : 0 ≤ sigma) :
    VanishesAt (dlogis x (fin mu) (fin sigma)) := by
  rcases outside_univ hx with rfl | rfl <;>
  constructor <;>
  simp [dlogis, logis_ok', logis_ok, h, dlogis_limit_vals, log_if]

theorem C05_dt {x : Fl} (hx : Outside Set.univ x) (dof : ℝ) (h : Lib.eps ≤ dof) :
    VanishesAt (dt x (fin dof)) := by
  rcases outside_univ hx with rfl | rfl <;>
  constructor <;>
  simp [dt, t_ok', t_ok, eps, h, log_zero_if]

theorem C05_dlnorm {x : Fl} (hx : Outside (Set.Ici 0) x) (mu sigma : ℝ) (h : 0 ≤ sigma) :
    VanishesAt (dlnorm x (fin mu) (fin sigma)) := by
  rcases outside_ici hx with rfl | ⟨hn, h0⟩ <;>
  constructor <;>
  simp_all [dlnorm, lnorm_ok', lnorm_ok, dlnorm_limit_vals, log_if, log_zero_if]

/-- At the left end 0 of the support the log-normal density is 0 as well. -/
theorem C05_dlnorm_zero (mu sigma : ℝ) (h : 0 ≤ sigma) :
    VanishesAt (dlnorm (fin 0) (fin mu) (fin sigma)) := by
  constructor <;>
  simp_all [dlnorm, lnorm_ok', lnorm_ok, dlnorm_limit_vals, log_if]
example : VanishesAt (dlnorm (fin 0) (fin 3) (fin 2)) := C05_dlnorm_zero (mu := 3) (sigma := 2) (h := by meets)

theorem C05_dunif {a b : ℝ} (hab : a < b) {x : Fl} (hx : Outside (Set.Icc a b) x) :
    VanishesAt (dunif x (fin a) (fin b)) := by
  obtain ⟨hn, h0⟩ := outside_icc hx
  constructor <;>
  simp_all [dunif, unif_ok', unif_ok, log_zero_if]

/-- Full statement of C05 for the exponential density: every finite rate ≥ 0, every point outside
`[0, ∞)`. The code violates it at `x = +inf` in log form, where it returns 0 (dexp.ipp:54-57). -/
theorem C05_dexp_violated :
    ¬ ∀ (x : Fl) (_ : Outside (Set.Ici 0) x) (rate : ℝ) (_ : 0 ≤ rate), VanishesAt (dexp x (fin rate)) := by
  intro hc
  have := (hc pinf ⟨by simp, by simp⟩ 1 (by norm_num)).2
  simp [dexp, exp_ok', exp_ok] at this

/-- What remains of C05 for the exponential density: negative points, and plain form at `+inf` for a
positive rate. Missing: log form at `+inf`; `rate = 0` at `+inf` (NaN). -/
theorem C05_dexp_partial {x : Fl} (hx : Outside (Set.Ici 0) x) {rate : ℝ} (h : 0 ≤ rate) :
    (x ≠ pinf → VanishesAt (dexp x (fin rate))) ∧ (0 < rate → dexp x (fin rate) false = fin 0) := by
  rcases outside_ici hx with rfl | ⟨hn, h0⟩
  · simp_all [dexp, exp_ok', exp_ok]
  · constructor
    · intro _
      constructor <;> simp_all [dexp, exp_ok', exp_ok, log_zero_if]
    · simp_all [dexp, exp_ok', exp_ok, log_zero_if]

theorem C05_dbeta {x : Fl} (hx : Outside (Set.Icc 0 1) x) (a b : ℝ) (ha : 0 ≤ a) (hb : 0 ≤ b) :
    VanishesAt (dbeta x (fin a) (fin b)) := by
  obtain ⟨hn, h0⟩ := outside_icc hx
  constructor <;>
  simp_all [dbeta, beta_ok', beta_ok, log_zero_if]

theorem C05_dgamma {x : Fl} (hx : Outside (Set.Ici 0) x) (shape scale : ℝ) (ha : 0 ≤ shape)
    (hb : Lib.eps ≤ scale) : VanishesAt (dgamma x (fin shape) (fin scale)) := by
  rcases outside_ici hx with rfl | ⟨hn, h0⟩
  · constructor <;> by_cases hs : shape = 0 <;>
    simp_all [dgamma, gamma_ok', gamma_ok, eps, log_zero_if, log_if, dgamma_limit_vals]
  · constructor <;>
    simp_all [dgamma, gamma_ok', gamma_ok, eps, log_zero_if]

/-- Full statement of C05 for the inverse-gamma density; it fails for shape 0 at `x = +inf`. -/
theorem C05_dinvgamma_violated :
    ¬ ∀ (x : Fl) (_ : Outside (Set.Ici 0) x) (shape rate : ℝ) (_ : 0 ≤ shape) (_ : 0 ≤ rate),
      VanishesAt (dinvgamma x (fin shape) (fin rate)) := by
  intro hc
  have := (hc pinf ⟨by simp, by simp⟩ 0 1 (by norm_num) (by norm_num)).1
  simp [dinvgamma, invgamma_ok', invgamma_ok, log_if, dinvgamma_limit_vals] at this

/-- C05 for the inverse-gamma density except `shape = 0`, `x = +inf`. -/
theorem C05_dinvgamma_partial {x : Fl} (hx : Outside (Set.Ici 0) x) {shape rate : ℝ} (ha : 0 ≤ shape)
    (hb : 0 ≤ rate) (hc : x ≠ pinf ∨ shape ≠ 0) : VanishesAt (dinvgamma x (fin shape) (fin rate)) := by
  rcases outside_ici hx with rfl | ⟨hn, h0⟩
  · constructor <;> by_cases hs : rate = 0 <;>
    simp_all [dinvgamma, invgamma_ok', invgamma_ok, log_zero_if]
  · constructor <;>
    simp_all [dinvgamma, invgamma_ok', invgamma_ok, log_zero_if]

theorem C05_dinvgauss {x : Fl} (hx : Outside (Set.Ici 0) x) (mu lambda : ℝ) (ha : 0 ≤ mu)
    (hb : 0 ≤ lambda) : VanishesAt (dinvgauss x (fin mu) (fin lambda)) := by
  rcases outside_ici hx with rfl | ⟨hn, h0⟩
  · constructor <;> by_cases hs : lambda = 0 <;>
    simp_all [dinvgauss, invgauss_ok', invgauss_ok, log_if, dinvgauss_limit_vals]
  · constructor <;>
    simp_all [dinvgauss, invgauss_ok', invgauss_ok, log_zero_if]

theorem C05_dchisq {x : Fl} (hx : Outside (Set.Ici 0) x) (dof : ℝ) (ha : 0 ≤ dof) :
    VanishesAt (dchisq x (fin dof)) := by
  rcases outside_ici hx with rfl | ⟨hn, h0⟩ <;>
  constructor <;>
  simp_all [dchisq, chisq_ok', chisq_ok, log_zero_if]

/-- Full statement of C05 for the F density; at `x = +inf` with `df1 < 2` the code returns NaN
(df.ipp:79-95). -/
theorem C05_df_violated :
    ¬ ∀ (x : Fl) (_ : Outside (Set.Ici 0) x) (df1 df2 : ℝ) (_ : Lib.eps ≤ df1) (_ : Lib.eps ≤ df2),
      VanishesAt (df x (fin df1) (fin df2)) := by
  intro hc
  have he := Lib.eps_le
  have h1 : Lib.eps ≤ 1 := by linarith
  have := (hc pinf ⟨by simp, by simp⟩ 1 1 h1 h1).1
  simp [df, f_ok', f_ok, eps, h1, log_if, df_limit_vals_xinf] at this

/-- C05 for the F density, except `x = +inf` with `df1 < 2` or `df2 < 1`. -/
theorem C05_df_partial {x : Fl} (hx : Outside (Set.Ici 0) x) {df1 df2 : ℝ} (h1 : Lib.eps ≤ df1)
    (h2 : Lib.eps ≤ df2) (hc : x ≠ pinf ∨ (2 ≤ df1 ∧ 1 ≤ df2)) :
    VanishesAt (df x (fin df1) (fin df2)) := by
  rcases outside_ici hx with rfl | ⟨hn, h0⟩ <;>
  constructor <;>
  simp_all [df, f_ok', f_ok, eps, log_if, log_zero_if, df_limit_vals_xinf]

theorem C05_dweibull {x : Fl} (hx : Outside (Set.Ici 0) x) (shape scale : ℝ) (h1 : Lib.eps ≤ shape)
    (h2 : Lib.eps ≤ scale) : VanishesAt (dweibull x (fin shape) (fin scale)) := by
  rcases outside_ici hx with rfl | ⟨hn, h0⟩
  · constructor <;> simp_all [dweibull, weibull_ok', weibull_ok, eps, log_zero_if]
  · constructor <;> simp_all [dweibull, weibull_ok', weibull_ok, eps, log_zero_if]

theorem C05_dbern {x : ℤ} (hx : x ∉ ({0, 1} : Set ℤ)) {p : Fl} (hp : Prob p) :
    VanishesAt (dbern x p) := by
  have := (bern_ok_iff p).2 hp
  constructor <;> simp_all [dbern, dbern_compute, log_if]

theorem C05_dradem {x : ℤ} (hx : x ∉ ({-1, 1} : Set ℤ)) {p : Fl} (hp : Prob p) :
    VanishesAt (dradem x p) := by
  have := (radem_ok_iff p).2 hp
  constructor <;> simp_all [dradem, dradem_compute, log_if]

theorem C05_dbinom {x n : ℤ} (hx : x ∉ Set.Icc 0 n) {p : Fl} (hp : Trials n p) :
    VanishesAt (dbinom x n p) := by
  have := (binom_ok_iff n p).2 hp
  have hx' : x < 0 ∨ n < x := by
    by_contra hc; simp only [not_or, not_lt] at hc; exact hx hc
  constructor <;> simp_all [dbinom, log_zero_if]

theorem C05_dpois {x : ℤ} (hx : x ∉ Set.Ici (0 : ℤ)) {rate : Fl} (hp : NonNeg rate) :
    VanishesAt (dpois x rate) := by
  have := (pois_ok_iff rate).2 hp
  have hx' : x < 0 := by simpa using hx
  constructor <;> simp_all [dpois, log_zero_if]

/-- C05 also asked for infinite bounds of a uniform: the code then returns 0 in log form too, for every
point, so the log-density is not minus infinity (dunif.ipp:52-53). -/
theorem C05_dunif_infinite_violated :
    ¬ ∀ (a b x : Fl), Ends a b → x < a → VanishesAt (dunif x a b) := by
  intro hc
  have := (hc (fin 0) pinf (fin (-1)) ((ends_iff _ _).2 (by simp)) (by simp)).2
  simp [dunif, unif_ok', unif_ok] at this

/-! Points outside, and parameters accepted. -/
example : Outside (Set.Ici 0) (fin (-3)) := ⟨by simp, by rintro r h ⟨⟩; norm_num at h⟩
example : Outside (Set.Icc 0 1) (fin 2) := ⟨by simp, by rintro r h ⟨⟩; norm_num at h⟩
example : Outside Set.univ pinf := ⟨by simp, by simp⟩
example : Lib.eps ≤ 2 := by have := Lib.eps_le; linarith
example : (3 : ℤ) ∉ ({0, 1} : Set ℤ) := by simp
example : Prob (fin (1 / 3)) := ⟨1 / 3, by norm_num, by norm_num, rfl⟩
example : NonNeg (fin 2) := by simp [nonNeg_iff]

end Stats

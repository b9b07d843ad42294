import Verif.Props.C43
import Verif.Props.C08E
import Verif.Lemmas.Meets

/-! # C43 for the log-normal distribution function and the gamma, beta, t, F, Weibull, inverse Gaussian families -/

set_option linter.unusedSectionVars false
open Classical
open Filter Topology
namespace Stats
open Fl Spec
variable [Lib] [Ideal]

/-! ### Log-normal distribution function (the code returns 0 below `eps` whatever the parameters) -/

theorem plnorm_eq_pnorm {x : ℝ} (hx : Lib.eps ≤ x) {mu sigma : Fl} (h : lnorm_ok mu sigma) (b : Bool) :
    plnorm (fin x) mu sigma b = pnorm (fin (Real.log x)) mu sigma b := by
  have h2 : ¬ x < Lib.eps := not_lt.2 hx
  have h3 : 0 < x := Lib.eps_pos.trans_le hx
  simp [plnorm, lnorm_ok', h, eps, h2, ilog h3]

theorem plnorm_below {x : ℝ} (hx : x < Lib.eps) {mu sigma : Fl} (h : lnorm_ok mu sigma) :
    VanishesAt (plnorm (fin x) mu sigma) := by
  constructor <;> simp [plnorm, lnorm_ok', h, eps, hx]

theorem C43_plnorm_mu {x : ℝ} (hx : Lib.eps ≤ x) {sigma : ℝ} (h : 0 < sigma) :
    LimTop2 (fun mu => plnorm (fin x) mu (fin sigma)) ∧ LimBot2 (fun mu => plnorm (fin x) mu (fin sigma)) := by
  have h0 : ¬ sigma < 0 := by linarith
  have := C43_pnorm_mu (Real.log x) h
  constructor
  · intro b
    have h1 := this.1 b
    simp only [LimTop] at h1 ⊢
    have e : ∀ m, plnorm (fin x) (fin m) (fin sigma) b = pnorm (fin (Real.log x)) (fin m) (fin sigma) b :=
      fun m => plnorm_eq_pnorm hx (by simp [lnorm_ok, h0]) b
    rw [plnorm_eq_pnorm hx (by simp [lnorm_ok, h0]) b]
    simpa only [e] using h1
  · intro b
    have h1 := this.2 b
    simp only [LimBot] at h1 ⊢
    have e : ∀ m, plnorm (fin x) (fin m) (fin sigma) b = pnorm (fin (Real.log x)) (fin m) (fin sigma) b :=
      fun m => plnorm_eq_pnorm hx (by simp [lnorm_ok, h0]) b
    rw [plnorm_eq_pnorm hx (by simp [lnorm_ok, h0]) b]
    simpa only [e] using h1
example : LimTop2 (fun mu => plnorm (fin (1 / 2)) mu (fin 2)) ∧ LimBot2 (fun mu => plnorm (fin (1 / 2)) mu (fin 2)) :=
  C43_plnorm_mu (x := 1 / 2) (hx := by meets) (sigma := 2) (h := by meets)

theorem C43_plnorm_sigma {x : ℝ} (hx : Lib.eps ≤ x) (mu : ℝ) : LimTop2 (fun s => plnorm (fin x) (fin mu) s) := by
  have h3 : 0 < x := Lib.eps_pos.trans_le hx
  refine limTop2 (r := 1 / 2) (fun _ => C07_plnorm _ _ _)
    ((eventually_gt_atTop 0).mono fun s hs => ?_) (Lim.Phi_zero.comp (Lim.scale_arg (Real.log x) mu)) ?_
    (by norm_num)
  · have := plnorm_fin mu hs x (Or.inl hx)
    rw [if_pos h3] at this
    exact ⟨(Phi_pos _).le, this⟩
  · rw [plnorm_eq_pnorm hx (by simp [lnorm_ok])]
    simp [pnorm, norm_ok', norm_ok, pnorm_limit_vals]
example : LimTop2 (fun s => plnorm (fin (1 / 2)) (fin 3) s) :=
  C43_plnorm_sigma (x := 1 / 2) (hx := by meets) (mu := 3)

/-! ### Exponential -/

/-- At `rate = +inf` the density is NaN, also at points where it tends to 0. -/
theorem C43_dexp_rate_violated {x : ℝ} (hx : 0 < x) :
    Approaches atTop (fun r => dexp (fin x) (fin r) false) (fin 0) ∧ dexp (fin x) pinf false = nan := by
  refine ⟨⟨_, (eventually_gt_atTop 0).mono fun r hr => ((C08_dexp hr).ev hx.le).2, Lim.exp_rate hx.ne'⟩, ?_⟩
  simp [dexp, exp_ok', exp_ok]
example : Approaches atTop (fun r => dexp (fin (1 / 2)) (fin r) false) (fin 0) ∧ dexp (fin (1 / 2)) pinf false = nan :=
  C43_dexp_rate_violated (x := 1 / 2) (hx := by meets)

theorem C43_dexp_x_partial {rate : ℝ} (h : 0 < rate) : LimTop (fun x => dexp x (fin rate) false) := by
  have h0 : ¬ rate < 0 := by linarith
  have e : dexp pinf (fin rate) false = fin 0 := by simp [dexp, exp_ok', exp_ok, h0, h]
  rw [LimTop, e]
  refine ⟨expPdf rate, ?_, Lim.exp_x h⟩
  filter_upwards [eventually_ge_atTop 0] with x hx using ((C08_dexp h).ev hx).2
example : LimTop (fun x => dexp x (fin 2) false) := C43_dexp_x_partial (rate := 2) (h := by meets)

/-- In log form `dexp(+inf)` is 0 (probability one) instead of `-inf`. -/
theorem C43_dexp_x_violated {rate : ℝ} (h : 0 < rate) : ¬ LimTop2 (fun x => dexp x (fin rate)) := by
  intro hl
  have h0 : ¬ rate < 0 := by linarith
  have e : dexp pinf (fin rate) true = fin 0 := by simp [dexp, exp_ok', exp_ok, h0, h]
  have := hl true
  simp only [LimTop, e] at this
  obtain ⟨g, hg, ht⟩ := this
  have hlog : Tendsto (fun x : ℝ => Real.log rate - rate * x) atTop atBot :=
    tendsto_atBot_add_const_left _ _ (tendsto_neg_atTop_atBot.comp (tendsto_id.const_mul_atTop h))
  have hev : g =ᶠ[atTop] fun x : ℝ => Real.log rate - rate * x := by
    filter_upwards [hg, eventually_ge_atTop 0] with x hx h2
    have h3 : ¬ x < 0 := not_lt.2 h2
    have : dexp (fin x) (fin rate) true = fin (Real.log rate - rate * x) := by
      simp only [dexp, exp_ok', exp_ok, dexp_log_compute, ideal, ilog h]
      simp [h0, h3]
    rw [this] at hx
    exact (Fl.fin.inj hx).symm
  exact not_tendsto_nhds_of_tendsto_atBot hlog 0 (ht.congr' hev)
example : ¬ LimTop2 (fun x => dexp x (fin 2)) := C43_dexp_x_violated (rate := 2) (h := by meets)

theorem C43_pexp_rate (x : ℝ) : LimTop2 (fun r => pexp (fin x) r) := by
  refine limTop2 (fun _ => C07_pexp _ _) ((eventually_gt_atTop 0).mono fun r hr => ⟨?_, pexp_fin hr x⟩)
    Lim.expCdf_rate ?_ (by split_ifs <;> norm_num)
  · split_ifs with h
    · have : Real.exp (-r * x) ≤ 1 := Real.exp_le_one_iff.2 (by nlinarith)
      linarith
    · exact le_rfl
  · by_cases h : 0 < x
    · simp [pexp, exp_ok', exp_ok, pexp_compute, h, not_le.2 h]
    · simp [pexp, exp_ok', exp_ok, pexp_compute, h, not_lt.1 h]

/-! ### Gamma, chi-squared -/

theorem C43_dgamma_x {shape scale : ℝ} (hk : 0 < shape) (hs : Lib.eps ≤ scale) :
    LimTop2 (fun x => dgamma x (fin shape) (fin scale)) := by
  have h0 : ¬ shape < 0 := by linarith
  have h1 : ¬ shape = 0 := by linarith
  have h2 : ¬ scale < Lib.eps := not_lt.2 hs
  refine limTop2 (fun _ => C07_dgamma _ _ _) ((eventually_gt_atTop 0).mono fun x hx => (C08_dgamma hk hs).ev hx)
    (Lim.gamma_x (Lib.eps_pos.trans_le hs)) ?_ le_rfl
  simp [dgamma, gamma_ok', gamma_ok, eps, h0, h1, h2]
example : LimTop2 (fun x => dgamma x (fin 3) (fin 2)) :=
  C43_dgamma_x (shape := 3) (scale := 2) (hk := by meets) (hs := by meets)

theorem C43_dgamma_shape {x scale : ℝ} (hx : 0 < x) (hs : Lib.eps ≤ scale) :
    LimTop2 (fun k => dgamma (fin x) k (fin scale)) := by
  have h0 : ¬ x < 0 := by linarith
  have h1 : ¬ x = 0 := by linarith
  have h2 : ¬ scale < Lib.eps := not_lt.2 hs
  refine limTop2 (fun _ => C07_dgamma _ _ _) ((eventually_gt_atTop 0).mono fun k hk => (C08_dgamma hk hs).ev hx)
    (Lim.gamma_shape (Lib.eps_pos.trans_le hs)) ?_ le_rfl
  simp [dgamma, gamma_ok', gamma_ok, eps, h0, h1, h2]
example : LimTop2 (fun k => dgamma (fin (1 / 2)) k (fin 2)) :=
  C43_dgamma_shape (x := 1 / 2) (scale := 2) (hx := by meets) (hs := by meets)

theorem C43_dgamma_scale {x shape : ℝ} (hx : 0 < x) (hk : 0 < shape) :
    LimTop2 (fun s => dgamma (fin x) (fin shape) s) := by
  have h0 : ¬ x < 0 := by linarith
  have h1 : ¬ x = 0 := by linarith
  have h2 : ¬ shape < 0 := by linarith
  have h3 : ¬ shape = 0 := by linarith
  refine limTop2 (fun _ => C07_dgamma _ _ _)
    ((eventually_ge_atTop Lib.eps).mono fun s hs => (C08_dgamma hk hs).ev hx) (Lim.gamma_scale hk) ?_ le_rfl
  simp [dgamma, gamma_ok', gamma_ok, eps, h0, h1, h2, h3]
example : LimTop2 (fun s => dgamma (fin (1 / 2)) (fin 3) s) :=
  C43_dgamma_scale (x := 1 / 2) (shape := 3) (hx := by meets) (hk := by meets)

theorem C43_pgamma_shape {x scale : ℝ} (hx : Lib.eps ≤ x) (hs : Lib.eps ≤ scale) :
    LimTop2 (fun k => pgamma (fin x) k (fin scale)) := by
  have hx0 := Lib.eps_pos.trans_le hx
  have hs0 := Lib.eps_pos.trans_le hs
  refine limTop2 (h := fun k => gammaP k (x / scale)) (r := 0) (fun _ => C07_pgamma _ _ _)
    ((eventually_gt_atTop 0).mono fun k hk => ⟨gammaP_nonneg hk (by positivity), ?_⟩)
    (Lim.gammaP_shape (by positivity)) ?_ le_rfl
  · rw [pgamma_fin hk hs x (Or.inl hx), if_pos hx0]
  · simp [pgamma, gamma_ok', gamma_ok, eps, pgamma_limit_vals, not_lt.2 hx, not_lt.2 hs]
example : LimTop2 (fun k => pgamma (fin (1 / 2)) k (fin 2)) :=
  C43_pgamma_shape (x := 1 / 2) (scale := 2) (hx := by meets) (hs := by meets)

theorem C43_pgamma_scale {x shape : ℝ} (hx : Lib.eps ≤ x) (hk : 0 < shape) :
    LimTop2 (fun s => pgamma (fin x) (fin shape) s) := by
  have hx0 := Lib.eps_pos.trans_le hx
  have h2 : ¬ shape < 0 := by linarith
  have h3 : ¬ shape = 0 := by linarith
  refine limTop2 (h := fun s => gammaP shape (x / s)) (r := 0) (fun _ => C07_pgamma _ _ _)
    ((eventually_ge_atTop Lib.eps).mono fun s hs => ⟨gammaP_nonneg hk ?_, ?_⟩) (Lim.gammaP_scale hk hx0) ?_ le_rfl
  · exact (div_pos hx0 (Lib.eps_pos.trans_le hs)).le
  · rw [pgamma_fin hk hs x (Or.inl hx), if_pos hx0]
  · simp [pgamma, gamma_ok', gamma_ok, eps, pgamma_limit_vals, not_lt.2 hx, h2, h3]
example : LimTop2 (fun s => pgamma (fin (1 / 2)) (fin 3) s) :=
  C43_pgamma_scale (x := 1 / 2) (shape := 3) (hx := by meets) (hk := by meets)

theorem C43_dchisq_x {dof : ℝ} (hk : 0 < dof) : LimTop2 (fun x => dchisq x (fin dof)) := by
  have h0 : ¬ dof < 0 := by linarith
  refine limTop2 (h := chisqPdf dof) (fun _ => C07_dchisq _ _)
    ((eventually_gt_atTop 0).mono fun x hx => (C08_dchisq hk).ev hx)
    (Lim.gamma_x (k := dof / 2) two_pos) ?_ le_rfl
  simp [dchisq, chisq_ok', chisq_ok, h0]
example : LimTop2 (fun x => dchisq x (fin 4)) := C43_dchisq_x (dof := 4) (hk := by meets)

theorem C43_dchisq_dof {x : ℝ} (hx : 0 < x) : LimTop2 (fun k => dchisq (fin x) k) := by
  have h0 : ¬ x < 0 := by linarith
  have h1 : ¬ x = 0 := by linarith
  refine limTop2 (h := fun k => chisqPdf k x) (fun _ => C07_dchisq _ _)
    ((eventually_gt_atTop 0).mono fun k hk => (C08_dchisq hk).ev hx)
    ((Lim.gamma_shape (x := x) two_pos).comp (tendsto_id.atTop_div_const two_pos)) ?_ le_rfl
  simp [dchisq, chisq_ok', chisq_ok, h0, h1]
example : LimTop2 (fun k => dchisq (fin (1 / 2)) k) := C43_dchisq_dof (x := 1 / 2) (hx := by meets)

theorem C43_pchisq_dof {x : ℝ} (hx : Lib.eps ≤ x) : LimTop2 (fun k => pchisq (fin x) k) := by
  have hx0 := Lib.eps_pos.trans_le hx
  refine limTop2 (h := fun k => gammaP (k / 2) (x / 2)) (r := 0) (fun _ => C07_pchisq _ _)
    ((eventually_gt_atTop 0).mono fun k hk => ⟨gammaP_nonneg (by positivity) (by positivity), ?_⟩)
    ((Lim.gammaP_shape (by positivity)).comp (tendsto_id.atTop_div_const two_pos)) ?_ le_rfl
  · rw [pchisq_fin hk x (Or.inl hx), if_pos hx0]
  · simp [pchisq, chisq_ok', chisq_ok, eps, not_lt.2 hx]
example : LimTop2 (fun k => pchisq (fin (1 / 2)) k) := C43_pchisq_dof (x := 1 / 2) (hx := by meets)

/-! ### Inverse gamma -/

theorem C43_dinvgamma_x {shape rate : ℝ} (hk : 0 < shape) (hr : 0 < rate) :
    LimTop2 (fun x => dinvgamma x (fin shape) (fin rate)) := by
  have h0 : ¬ shape < 0 := by linarith
  have h1 : ¬ shape = 0 := by linarith
  have h2 : ¬ rate < 0 := by linarith
  have h3 : ¬ rate = 0 := by linarith
  refine limTop2 (fun _ => C07_dinvgamma _ _ _) ((eventually_gt_atTop 0).mono fun x hx => (C08_dinvgamma hk hr).ev hx)
    (Lim.invgamma_x hk) ?_ le_rfl
  simp [dinvgamma, invgamma_ok', invgamma_ok, h0, h1, h2, h3]
example : LimTop2 (fun x => dinvgamma x (fin 3) (fin 2)) :=
  C43_dinvgamma_x (shape := 3) (rate := 2) (hk := by meets) (hr := by meets)

theorem C43_dinvgamma_shape {x rate : ℝ} (hx : 0 < x) (hr : 0 < rate) :
    LimTop2 (fun k => dinvgamma (fin x) k (fin rate)) := by
  have h0 : ¬ x < 0 := by linarith
  have h1 : ¬ x = 0 := by linarith
  have h2 : ¬ rate < 0 := by linarith
  have h3 : ¬ rate = 0 := by linarith
  refine limTop2 (fun _ => C07_dinvgamma _ _ _) ((eventually_gt_atTop 0).mono fun k hk => (C08_dinvgamma hk hr).ev hx)
    (Lim.invgamma_shape hr) ?_ le_rfl
  simp [dinvgamma, invgamma_ok', invgamma_ok, h0, h1, h2, h3]
example : LimTop2 (fun k => dinvgamma (fin (1 / 2)) k (fin 2)) :=
  C43_dinvgamma_shape (x := 1 / 2) (rate := 2) (hx := by meets) (hr := by meets)

theorem C43_dinvgamma_rate {x shape : ℝ} (hx : 0 < x) (hk : 0 < shape) :
    LimTop2 (fun r => dinvgamma (fin x) (fin shape) r) := by
  have h0 : ¬ x < 0 := by linarith
  have h1 : ¬ x = 0 := by linarith
  have h2 : ¬ shape < 0 := by linarith
  have h3 : ¬ shape = 0 := by linarith
  refine limTop2 (fun _ => C07_dinvgamma _ _ _) ((eventually_gt_atTop 0).mono fun r hr => (C08_dinvgamma hk hr).ev hx)
    (Lim.invgamma_rate shape x) ?_ le_rfl
  simp [dinvgamma, invgamma_ok', invgamma_ok, h0, h1, h2, h3]
example : LimTop2 (fun r => dinvgamma (fin (1 / 2)) (fin 3) r) :=
  C43_dinvgamma_rate (x := 1 / 2) (shape := 3) (hx := by meets) (hk := by meets)

/-- Hypotheses: outside them the code returns NaN or 1 (rates above `1/eps`, points above `1/eps`). -/
theorem C43_pinvgamma_shape {x rate : ℝ} (hx : 0 < x) (hx' : Lib.eps ≤ 1 / x) (hr : 0 < rate)
    (hr' : Lib.eps ≤ 1 / rate) : LimTop2 (fun k => pinvgamma (fin x) k (fin rate)) := by
  have ht : Tendsto (fun k => 1 - gammaP k (rate / x)) atTop (𝓝 1) := by
    simpa using (Lim.gammaP_shape (z := rate / x) (by positivity)).const_sub 1
  refine limTop2 (h := fun k => 1 - gammaP k (rate / x)) (r := 1) (fun _ => C07_pinvgamma _ _ _)
    ((eventually_gt_atTop 0).mono fun k hk => ⟨?_, ?_⟩) ht ?_ zero_le_one
  · have := gammaP_lt_one hk (z := rate / x) (by positivity)
    linarith
  · rw [pinvgamma_fin hk hr hr' x (Or.inl hx'), if_pos hx]
  · have h0 : ¬ x < 0 := by linarith
    have h1 : ¬ x = 0 := by linarith
    have h2 : ¬ rate < 0 := by linarith
    have h3 : ¬ rate = 0 := by linarith
    have h4 : ¬ x⁻¹ < Lib.eps := by simpa using hx'
    have h5 : ¬ rate⁻¹ < Lib.eps := by simpa using hr'
    simp [pinvgamma, invgamma_ok', invgamma_ok, pinvgamma_limit_vals, pinvgamma_compute, h0, h1, h2, h3, pgamma,
      gamma_ok', gamma_ok, eps, pgamma_limit_vals, one_eq, ifin_div _ h1, ifin_div _ h3, h4, h5, ifin_sub]
example : LimTop2 (fun k => pinvgamma (fin (1 / 2)) k (fin 2)) :=
  C43_pinvgamma_shape (x := 1 / 2) (rate := 2) (hx := by meets) (hx' := by meets) (hr := by meets) (hr' := by meets)

/-- At infinite rate the distribution function is NaN (as for every rate above `1/eps`); it should be 0. -/
theorem C43_pinvgamma_rate_violated : ¬ LimTop2 (fun r => pinvgamma (fin 1) (fin 1) r) := by
  intro h
  have h1 := h false
  have e : pinvgamma (fin 1) (fin 1) pinf false = nan := by
    simp [pinvgamma, invgamma_ok', invgamma_ok, pinvgamma_limit_vals, pinvgamma_compute, pgamma,
      gamma_ok', gamma_ok, eps, Lib.eps_pos]
  simp only [LimTop, e] at h1
  exact h1

/-! ### Inverse Gaussian -/

theorem C43_dinvgauss_x {mu lambda : ℝ} (hm : 0 < mu) (hl : 0 < lambda) :
    LimTop2 (fun x => dinvgauss x (fin mu) (fin lambda)) := by
  have h0 : ¬ mu < 0 := by linarith
  have h1 : ¬ lambda = 0 := by linarith
  have h2 : ¬ lambda < 0 := by linarith
  refine limTop2 (fun _ => C07_dinvgauss _ _ _) ((eventually_gt_atTop 0).mono fun x hx => (C08_dinvgauss hm hl).ev hx)
    (Lim.invgauss_x hm hl) ?_ le_rfl
  simp [dinvgauss, invgauss_ok', invgauss_ok, dinvgauss_limit_vals, h0, h1, h2]
example : LimTop2 (fun x => dinvgauss x (fin 3) (fin 2)) :=
  C43_dinvgauss_x (mu := 3) (lambda := 2) (hm := by meets) (hl := by meets)

theorem C43_dinvgauss_lambda {x mu : ℝ} (hx : 0 < x) (hm : 0 < mu) (hne : x ≠ mu) :
    LimTop2 (fun l => dinvgauss (fin x) (fin mu) l) := by
  have h0 : ¬ mu < 0 := by linarith
  have h1 : ¬ x = 0 := by linarith
  have h2 : ¬ x < 0 := by linarith
  refine limTop2 (fun _ => C07_dinvgauss _ _ _) ((eventually_gt_atTop 0).mono fun l hl => (C08_dinvgauss hm hl).ev hx)
    (Lim.invgauss_lambda hm hne) ?_ le_rfl
  simp [dinvgauss, invgauss_ok', invgauss_ok, dinvgauss_limit_vals, h0, h1, h2, hne]
example : LimTop2 (fun l => dinvgauss (fin (1 / 2)) (fin 3) l) :=
  C43_dinvgauss_lambda (x := 1 / 2) (mu := 3) (hx := by meets) (hm := by meets) (hne := by meets)

/-- At infinite mean the code returns 0; the limit is the (positive) Lévy density. -/
theorem C43_dinvgauss_mu_violated {x lambda : ℝ} (hx : 0 < x) (hl : 0 < lambda) :
    ¬ LimTop2 (fun m => dinvgauss (fin x) m (fin lambda)) := by
  intro h
  have h0 : ¬ lambda < 0 := by linarith
  have h1 : ¬ x = 0 := by linarith
  have h2 : ¬ x < 0 := by linarith
  have h3 : ¬ lambda = 0 := by linarith
  have e : dinvgauss (fin x) pinf (fin lambda) false = fin 0 := by
    simp [dinvgauss, invgauss_ok', invgauss_ok, dinvgauss_limit_vals, h0, h1, h2, h3]
  have := h false
  simp only [LimTop, e] at this
  obtain ⟨g, hg, ht⟩ := this
  have hev : (fun mu => invgaussPdf mu lambda x) =ᶠ[atTop] g := by
    filter_upwards [hg, eventually_gt_atTop 0] with m hm h4
    rw [((C08_dinvgauss h4 hl).ev hx).2] at hm
    exact Fl.fin.inj hm
  have hpi := Real.pi_pos
  have := tendsto_nhds_unique (ht.congr' hev.symm) (Lim.invgauss_mu hx)
  have hp : 0 < √(lambda / (2 * Real.pi * x ^ 3)) * Real.exp (-lambda / (2 * x)) := by positivity
  linarith
example : ¬ LimTop2 (fun m => dinvgauss (fin (1 / 2)) m (fin 2)) :=
  C43_dinvgauss_mu_violated (x := 1 / 2) (lambda := 2) (hx := by meets) (hl := by meets)

theorem C43_pinvgauss_lambda {x mu : ℝ} (hx : 0 < x) (hm : 0 < mu) (hne : x ≠ mu) :
    LimTop2 (fun l => pinvgauss (fin x) (fin mu) l) := by
  have h0 : ¬ mu < 0 := by linarith
  have h1 : ¬ x = 0 := by linarith
  have h2 : ¬ x < 0 := by linarith
  have h3 : ¬ mu = 0 := by linarith
  refine limTop2 (fun _ => C07_pinvgauss _ _ _) ((eventually_gt_atTop 0).mono fun l hl => ⟨?_, ?_⟩)
    (Lim.invgaussCdf_lambda hm hx hne) ?_ (by split_ifs <;> norm_num)
  · have := (isCdf_invgauss hm hl).nonneg' x
    rwa [if_pos hx] at this
  · rw [pinvgauss_fin hm hl x, if_pos hx]
  · by_cases h : mu ≤ x <;>
    simp [pinvgauss, invgauss_ok', invgauss_ok, pinvgauss_limit_vals, h0, h1, h2, h3, h]
example : LimTop2 (fun l => pinvgauss (fin (1 / 2)) (fin 3) l) :=
  C43_pinvgauss_lambda (x := 1 / 2) (mu := 3) (hx := by meets) (hm := by meets) (hne := by meets)

/-- At infinite mean the code returns 0; the limit is positive. -/
theorem C43_pinvgauss_mu_violated {x lambda : ℝ} (hx : 0 < x) (hl : 0 < lambda) :
    ¬ LimTop2 (fun m => pinvgauss (fin x) m (fin lambda)) := by
  intro h
  have h0 : ¬ lambda < 0 := by linarith
  have h1 : ¬ x = 0 := by linarith
  have h2 : ¬ x < 0 := by linarith
  have h3 : ¬ lambda = 0 := by linarith
  have e : pinvgauss (fin x) pinf (fin lambda) false = fin 0 := by
    simp [pinvgauss, invgauss_ok', invgauss_ok, pinvgauss_limit_vals, h0, h1, h2, h3]
  have := h false
  simp only [LimTop, e] at this
  obtain ⟨g, hg, ht⟩ := this
  have hev : (fun mu => invgaussCdf mu lambda x) =ᶠ[atTop] g := by
    filter_upwards [hg, eventually_gt_atTop 0] with m hm h4
    rw [pinvgauss_fin h4 hl x, if_pos hx] at hm
    exact Fl.fin.inj hm
  have := tendsto_nhds_unique (ht.congr' hev.symm) Lim.invgaussCdf_mu
  have hp := Phi_pos (-√(lambda / x))
  linarith
example : ¬ LimTop2 (fun m => pinvgauss (fin (1 / 2)) m (fin 2)) :=
  C43_pinvgauss_mu_violated (x := 1 / 2) (lambda := 2) (hx := by meets) (hl := by meets)

/-! ### Student t -/

theorem C43_dt_x {dof : ℝ} (h : Lib.eps ≤ dof) :
    LimTop2 (fun x => dt x (fin dof)) ∧ LimBot2 (fun x => dt x (fin dof)) := by
  have hd := Lib.eps_pos.trans_le h
  refine ⟨limTop2 (fun _ => C07_dt _ _) (Eventually.of_forall fun x => (C08_dt h).ev trivial)
      (Lim.t_far hd tendsto_abs_atTop_atTop) ?_ le_rfl,
    limBot2 (fun _ => C07_dt _ _) (Eventually.of_forall fun x => (C08_dt h).ev trivial)
      (Lim.t_far hd tendsto_abs_atBot_atTop) ?_ le_rfl⟩ <;>
  simp [dt, t_ok', t_ok, eps, not_lt.2 h]
example : LimTop2 (fun x => dt x (fin 4)) ∧ LimBot2 (fun x => dt x (fin 4)) := C43_dt_x (dof := 4) (h := by meets)

/-- The density at infinite degrees of freedom is the normal one, and the t densities do converge to it. -/
theorem C43_dt_dof (x : ℝ) : LimTop2 (fun k => dt (fin x) k) := by
  refine limTop2 (fun _ => C07_dt _ _) ((eventually_ge_atTop Lib.eps).mono fun k hk => (C08_dt hk).ev trivial)
    (Lim.t_dof x) ?_ (normPdf_pos one_pos x).le
  have := ((C08_dnorm 0 one_pos).ev (x := x) trivial).2
  simp [dt, t_ok', t_ok, eps, zero_eq, one_eq, this]

theorem C43_pt_dof (x : ℝ) : LimTop2 (fun k => pt (fin x) k) := by
  refine limTop2 (fun _ => C07_pt _ _)
    ((eventually_ge_atTop Lib.eps).mono fun k hk =>
      ⟨(isCdf_t (Lib.eps_pos.trans_le hk)).nonneg' x, pt_fin hk x⟩)
    (Lim.tCdf_dof x) ?_ (Phi_pos x).le
  have := pnorm_fin 0 one_pos x
  simp [pt, t_ok', t_ok, eps, zero_eq, one_eq, this]

/-! ### F -/

theorem C43_df_df2 {x d1 : ℝ} (hx : 0 < x) (h1 : Lib.eps ≤ d1) (h1' : Lib.eps ≤ 2 / d1) :
    LimTop2 (fun d2 => df (fin x) (fin d1) d2) := by
  have p1 := Lib.eps_pos.trans_le h1
  refine limTop2 (fun _ => C07_df _ _ _) ((eventually_ge_atTop Lib.eps).mono fun d2 h2 => (C08_df h1 h2).ev hx)
    (Lim.f_df2 p1 hx) ?_ ?_
  · have := ((C08_dgamma (shape := d1 / 2) (scale := 2 / d1) (by positivity) h1').ev (x := x) hx).2
    have h0 : ¬ x < 0 := by linarith
    have h2 : ¬ x = 0 := by linarith
    simp only [df, f_ok', f_ok, eps, df_limit_vals_dof, ideal, ifin_div _ (two_ne_zero (α := ℝ)), ifin_div _ p1.ne', this]
    simp [not_lt.2 h1, h0, h2]
  · exact (gammaPdf_pos (by positivity) (by positivity) hx).le
example : LimTop2 (fun d2 => df (fin (1 / 2)) (fin 3) d2) :=
  C43_df_df2 (x := 1 / 2) (d1 := 3) (hx := by meets) (h1 := by meets) (h1' := by meets)

theorem C43_df_df1 {x d2 : ℝ} (hx : 0 < x) (h2 : Lib.eps ≤ d2) :
    LimTop2 (fun d1 => df (fin x) d1 (fin d2)) := by
  have p2 := Lib.eps_pos.trans_le h2
  have hd := (C08_dinvgamma (shape := d2 / 2) (rate := d2 / 2) (by positivity) (by positivity)).ev (x := x) hx
  refine limTop2 (fun _ => C07_df _ _ _) ((eventually_ge_atTop Lib.eps).mono fun d1 h1 => (C08_df h1 h2).ev hx)
    (Lim.f_df1 p2 hx) ?_ hd.1
  have := hd.2
  have h0 : ¬ x < 0 := by linarith
  have h2' : ¬ x = 0 := by linarith
  simp only [df, f_ok', f_ok, eps, df_limit_vals_dof, ideal, ifin_div _ (two_ne_zero (α := ℝ)), this]
  simp [not_lt.2 h2, h0, h2']
example : LimTop2 (fun d1 => df (fin (1 / 2)) d1 (fin 5)) :=
  C43_df_df1 (x := 1 / 2) (d2 := 5) (hx := by meets) (h2 := by meets)

end Stats

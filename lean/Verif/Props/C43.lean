import Verif.Spec.Limit
import Verif.Spec.Point
import Verif.Lemmas.Limits2
import Verif.Lemmas.ProbIdeal
import Verif.Lemmas.QuantIdeal
import Verif.Props.C07
import Verif.Props.C08D
import Verif.Lemmas.Meets

/-!
# C43: values at infinite arguments are limits of values at finite arguments (exact arithmetic)

For every argument in turn: the value the code returns when that argument is infinite is the limit of the values it
returns at finite arguments, in plain and in log form. `LimTop2`, `LimBot2` are in `Verif/Spec/Limit.lean`. Where the
limit law is a point mass, the point itself is excluded and the density there is the pole of C41.
-/

set_option linter.unusedSectionVars false
open Classical
open Filter Topology
namespace Stats
open Fl Spec
variable [Lib] [Ideal]

/-! ### From real limits to coded limits -/

theorem approaches_log {l : Filter ℝ} {g : ℝ → Fl} {h : ℝ → ℝ} {r : ℝ} (hg : ∀ᶠ t in l, 0 ≤ h t ∧ g t = log (fin (h t)))
    (ht : Tendsto h l (𝓝 r)) (hr : 0 ≤ r) : Approaches l g (log (fin r)) := by
  rcases hr.eq_or_lt with rfl | hr
  · have e : log (fin 0) = ninf := by simp
    rw [e]
    intro M
    filter_upwards [hg, ht.eventually_lt_const (Real.exp_pos M)] with t ⟨h0, h1⟩ h2
    rw [h1]
    rcases h0.eq_or_lt with h0 | h0
    · rw [← h0, e]; trivial
    · rw [ilog h0, fin_le_fin]
      exact ((Real.log_lt_iff_lt_exp h0).2 h2).le
  · rw [ilog hr]
    refine ⟨fun t => Real.log (h t), ?_, ht.log hr.ne'⟩
    filter_upwards [hg, ht.eventually_const_lt hr] with t ⟨_, h1⟩ h2
    rw [h1, ilog h2]

theorem approaches2 {l : Filter ℝ} {F : Fl → Bool → Fl} {h : ℝ → ℝ} {p : Fl} {r : ℝ} (hlog : ∀ t, LogForm (F t))
    (hev : ∀ᶠ t in l, 0 ≤ h t ∧ F (fin t) false = fin (h t)) (ht : Tendsto h l (𝓝 r)) (hp : F p false = fin r)
    (hr : 0 ≤ r) (b : Bool) : Approaches l (fun t => F (fin t) b) (F p b) := by
  cases b
  · rw [hp]
    exact ⟨h, hev.mono fun t ht => ht.2, ht⟩
  · rw [hlog p, hp]
    refine approaches_log (hev.mono fun t ht => ⟨ht.1, ?_⟩) ht hr
    exact (hlog (fin t)).trans (by rw [ht.2])

theorem limTop2 {F : Fl → Bool → Fl} {h : ℝ → ℝ} {r : ℝ} (hlog : ∀ t, LogForm (F t))
    (hev : ∀ᶠ t in atTop, 0 ≤ h t ∧ F (fin t) false = fin (h t)) (ht : Tendsto h atTop (𝓝 r))
    (hp : F pinf false = fin r) (hr : 0 ≤ r) : LimTop2 F := fun b => approaches2 hlog hev ht hp hr b
theorem limBot2 {F : Fl → Bool → Fl} {h : ℝ → ℝ} {r : ℝ} (hlog : ∀ t, LogForm (F t))
    (hev : ∀ᶠ t in atBot, 0 ≤ h t ∧ F (fin t) false = fin (h t)) (ht : Tendsto h atBot (𝓝 r))
    (hp : F ninf false = fin r) (hr : 0 ≤ r) : LimBot2 F := fun b => approaches2 hlog hev ht hp hr b

theorem Spec.IsDensityOn.ev {d : Fl → Bool → Fl} {f : ℝ → ℝ} {s : Set ℝ} (h : IsDensityOn d f s) {x : ℝ} (hx : x ∈ s) :
    0 ≤ f x ∧ d (fin x) false = fin (f x) := ⟨(h x hx).1.le, (h x hx).2.1⟩

/-! ### Normal -/

theorem C43_dnorm_x (mu : ℝ) {sigma : ℝ} (h : 0 < sigma) :
    LimTop2 (fun x => dnorm x (fin mu) (fin sigma)) ∧ LimBot2 (fun x => dnorm x (fin mu) (fin sigma)) := by
  have h0 : ¬ sigma < 0 := by linarith
  have h1 : ¬ sigma = 0 := by linarith
  refine ⟨limTop2 (fun _ => C07_dnorm _ _ _) (Eventually.of_forall fun x => (C08_dnorm mu h).ev trivial)
      (Lim.norm_far (Lim.abs_sub_top mu) h) ?_ le_rfl,
    limBot2 (fun _ => C07_dnorm _ _ _) (Eventually.of_forall fun x => (C08_dnorm mu h).ev trivial)
      (Lim.norm_far (Lim.abs_sub_bot mu) h) ?_ le_rfl⟩ <;>
  simp [dnorm, norm_ok', norm_ok, dnorm_limit_vals, h0, h1]
example : LimTop2 (fun x => dnorm x (fin 3) (fin 2)) ∧ LimBot2 (fun x => dnorm x (fin 3) (fin 2)) :=
  C43_dnorm_x (mu := 3) (sigma := 2) (h := by meets)

theorem C43_dnorm_mu (x : ℝ) {sigma : ℝ} (h : 0 < sigma) :
    LimTop2 (fun mu => dnorm (fin x) mu (fin sigma)) ∧ LimBot2 (fun mu => dnorm (fin x) mu (fin sigma)) := by
  have h0 : ¬ sigma < 0 := by linarith
  have h1 : ¬ sigma = 0 := by linarith
  refine ⟨limTop2 (fun _ => C07_dnorm _ _ _) (Eventually.of_forall fun mu => (C08_dnorm mu h).ev trivial)
      (Lim.norm_far (u := fun _ => x) (Lim.abs_sub_top' x) h) ?_ le_rfl,
    limBot2 (fun _ => C07_dnorm _ _ _) (Eventually.of_forall fun mu => (C08_dnorm mu h).ev trivial)
      (Lim.norm_far (u := fun _ => x) (Lim.abs_sub_bot' x) h) ?_ le_rfl⟩ <;>
  simp [dnorm, norm_ok', norm_ok, dnorm_limit_vals, h0, h1]
example : LimTop2 (fun mu => dnorm (fin (1 / 2)) mu (fin 2)) ∧ LimBot2 (fun mu => dnorm (fin (1 / 2)) mu (fin 2)) :=
  C43_dnorm_mu (x := 1 / 2) (sigma := 2) (h := by meets)

theorem C43_dnorm_sigma (x mu : ℝ) : LimTop2 (fun s => dnorm (fin x) (fin mu) s) := by
  refine limTop2 (fun _ => C07_dnorm _ _ _)
    ((eventually_gt_atTop 0).mono fun s hs => (C08_dnorm mu hs).ev trivial) (Lim.norm_wide mu x) ?_ le_rfl
  simp [dnorm, norm_ok', norm_ok, dnorm_limit_vals]

theorem pnorm_ev (mu : ℝ) {s : ℝ} (hs : 0 < s) (x : ℝ) :
    0 ≤ Phi ((x - mu) / s) ∧ pnorm (fin x) (fin mu) (fin s) false = fin (Phi ((x - mu) / s)) :=
  ⟨(Phi_pos _).le, pnorm_fin mu hs x⟩

theorem C43_pnorm_mu (x : ℝ) {sigma : ℝ} (h : 0 < sigma) :
    LimTop2 (fun mu => pnorm (fin x) mu (fin sigma)) ∧ LimBot2 (fun mu => pnorm (fin x) mu (fin sigma)) := by
  have h0 : ¬ sigma < 0 := by linarith
  have h1 : ¬ sigma = 0 := by linarith
  refine ⟨limTop2 (r := 0) (fun _ => C07_pnorm _ _ _) (Eventually.of_forall fun mu => pnorm_ev mu h x)
      (tendsto_Phi_atBot.comp (Lim.loc_arg_top x h)) ?_ le_rfl,
    limBot2 (r := 1) (fun _ => C07_pnorm _ _ _) (Eventually.of_forall fun mu => pnorm_ev mu h x)
      (tendsto_Phi_atTop.comp (Lim.loc_arg_bot x h)) ?_ zero_le_one⟩ <;>
  simp [pnorm, norm_ok', norm_ok, pnorm_limit_vals, h0, h1]
example : LimTop2 (fun mu => pnorm (fin (1 / 2)) mu (fin 2)) ∧ LimBot2 (fun mu => pnorm (fin (1 / 2)) mu (fin 2)) :=
  C43_pnorm_mu (x := 1 / 2) (sigma := 2) (h := by meets)

theorem C43_pnorm_sigma (x mu : ℝ) : LimTop2 (fun s => pnorm (fin x) (fin mu) s) := by
  refine limTop2 (r := 1 / 2) (fun _ => C07_pnorm _ _ _)
    ((eventually_gt_atTop 0).mono fun s hs => pnorm_ev mu hs x) (Lim.Phi_zero.comp (Lim.scale_arg x mu)) ?_
    (by norm_num)
  simp [pnorm, norm_ok', norm_ok, pnorm_limit_vals]

/-! ### Cauchy -/

theorem C43_dcauchy_x (mu : ℝ) {sigma : ℝ} (h : 0 < sigma) :
    LimTop2 (fun x => dcauchy x (fin mu) (fin sigma)) ∧ LimBot2 (fun x => dcauchy x (fin mu) (fin sigma)) := by
  have h0 : ¬ sigma < 0 := by linarith
  refine ⟨limTop2 (fun _ => C07_dcauchy _ _ _) (Eventually.of_forall fun x => (C08_dcauchy mu h).ev trivial)
      (Lim.cauchy_far (Lim.abs_sub_top mu) h) ?_ le_rfl,
    limBot2 (fun _ => C07_dcauchy _ _ _) (Eventually.of_forall fun x => (C08_dcauchy mu h).ev trivial)
      (Lim.cauchy_far (Lim.abs_sub_bot mu) h) ?_ le_rfl⟩ <;>
  simp [dcauchy, cauchy_ok', cauchy_ok, dcauchy_limit_vals, h0]
example : LimTop2 (fun x => dcauchy x (fin 3) (fin 2)) ∧ LimBot2 (fun x => dcauchy x (fin 3) (fin 2)) :=
  C43_dcauchy_x (mu := 3) (sigma := 2) (h := by meets)

theorem C43_dcauchy_mu (x : ℝ) {sigma : ℝ} (h : 0 < sigma) :
    LimTop2 (fun mu => dcauchy (fin x) mu (fin sigma)) ∧ LimBot2 (fun mu => dcauchy (fin x) mu (fin sigma)) := by
  have h0 : ¬ sigma < 0 := by linarith
  refine ⟨limTop2 (fun _ => C07_dcauchy _ _ _) (Eventually.of_forall fun mu => (C08_dcauchy mu h).ev trivial)
      (Lim.cauchy_far (u := fun _ => x) (Lim.abs_sub_top' x) h) ?_ le_rfl,
    limBot2 (fun _ => C07_dcauchy _ _ _) (Eventually.of_forall fun mu => (C08_dcauchy mu h).ev trivial)
      (Lim.cauchy_far (u := fun _ => x) (Lim.abs_sub_bot' x) h) ?_ le_rfl⟩ <;>
  simp [dcauchy, cauchy_ok', cauchy_ok, dcauchy_limit_vals, h0]
example : LimTop2 (fun mu => dcauchy (fin (1 / 2)) mu (fin 2)) ∧ LimBot2 (fun mu => dcauchy (fin (1 / 2)) mu (fin 2)) :=
  C43_dcauchy_mu (x := 1 / 2) (sigma := 2) (h := by meets)

theorem C43_dcauchy_sigma (x mu : ℝ) : LimTop2 (fun s => dcauchy (fin x) (fin mu) s) := by
  refine limTop2 (fun _ => C07_dcauchy _ _ _)
    ((eventually_gt_atTop 0).mono fun s hs => (C08_dcauchy mu hs).ev trivial) (Lim.cauchy_wide mu x) ?_ le_rfl
  simp [dcauchy, cauchy_ok', cauchy_ok, dcauchy_limit_vals]

theorem pcauchy_ev (mu : ℝ) {s : ℝ} (hs : 0 < s) (x : ℝ) :
    0 ≤ Lim.cauG ((x - mu) / s) ∧ pcauchy (fin x) (fin mu) (fin s) false = fin (Lim.cauG ((x - mu) / s)) :=
  ⟨(isCdf_cauchy mu hs).nonneg' x, pcauchy_fin mu hs x⟩

theorem C43_pcauchy_mu (x : ℝ) {sigma : ℝ} (h : 0 < sigma) :
    LimTop2 (fun mu => pcauchy (fin x) mu (fin sigma)) ∧ LimBot2 (fun mu => pcauchy (fin x) mu (fin sigma)) := by
  have h0 : ¬ sigma < 0 := by linarith
  refine ⟨limTop2 (r := 0) (fun _ => C07_pcauchy _ _ _) (Eventually.of_forall fun mu => pcauchy_ev mu h x)
      (Lim.cauG_bot.comp (Lim.loc_arg_top x h)) ?_ le_rfl,
    limBot2 (r := 1) (fun _ => C07_pcauchy _ _ _) (Eventually.of_forall fun mu => pcauchy_ev mu h x)
      (Lim.cauG_top.comp (Lim.loc_arg_bot x h)) ?_ zero_le_one⟩ <;>
  simp [pcauchy, cauchy_ok', cauchy_ok, pcauchy_limit_vals, h0]
example : LimTop2 (fun mu => pcauchy (fin (1 / 2)) mu (fin 2)) ∧ LimBot2 (fun mu => pcauchy (fin (1 / 2)) mu (fin 2)) :=
  C43_pcauchy_mu (x := 1 / 2) (sigma := 2) (h := by meets)

theorem C43_pcauchy_sigma (x mu : ℝ) : LimTop2 (fun s => pcauchy (fin x) (fin mu) s) := by
  refine limTop2 (r := 1 / 2) (fun _ => C07_pcauchy _ _ _)
    ((eventually_gt_atTop 0).mono fun s hs => pcauchy_ev mu hs x) (Lim.cauG_zero.comp (Lim.scale_arg x mu)) ?_
    (by norm_num)
  simp [pcauchy, cauchy_ok', cauchy_ok, pcauchy_limit_vals]

/-! ### Laplace -/

theorem C43_dlaplace_x (mu : ℝ) {sigma : ℝ} (h : 0 < sigma) :
    LimTop2 (fun x => dlaplace x (fin mu) (fin sigma)) ∧ LimBot2 (fun x => dlaplace x (fin mu) (fin sigma)) := by
  have h0 : ¬ sigma < 0 := by linarith
  have h1 : ¬ sigma = 0 := by linarith
  refine ⟨limTop2 (fun _ => C07_dlaplace _ _ _) (Eventually.of_forall fun x => (C08_dlaplace mu h).ev trivial)
      (Lim.laplace_far (Lim.abs_sub_top mu) h) ?_ le_rfl,
    limBot2 (fun _ => C07_dlaplace _ _ _) (Eventually.of_forall fun x => (C08_dlaplace mu h).ev trivial)
      (Lim.laplace_far (Lim.abs_sub_bot mu) h) ?_ le_rfl⟩ <;>
  simp [dlaplace, laplace_ok', laplace_ok, dlaplace_limit_vals, h0, h1]
example : LimTop2 (fun x => dlaplace x (fin 3) (fin 2)) ∧ LimBot2 (fun x => dlaplace x (fin 3) (fin 2)) :=
  C43_dlaplace_x (mu := 3) (sigma := 2) (h := by meets)

theorem C43_dlaplace_mu (x : ℝ) {sigma : ℝ} (h : 0 < sigma) :
    LimTop2 (fun mu => dlaplace (fin x) mu (fin sigma)) ∧ LimBot2 (fun mu => dlaplace (fin x) mu (fin sigma)) := by
  have h0 : ¬ sigma < 0 := by linarith
  have h1 : ¬ sigma = 0 := by linarith
  refine ⟨limTop2 (fun _ => C07_dlaplace _ _ _) (Eventually.of_forall fun mu => (C08_dlaplace mu h).ev trivial)
      (Lim.laplace_far (u := fun _ => x) (Lim.abs_sub_top' x) h) ?_ le_rfl,
    limBot2 (fun _ => C07_dlaplace _ _ _) (Eventually.of_forall fun mu => (C08_dlaplace mu h).ev trivial)
      (Lim.laplace_far (u := fun _ => x) (Lim.abs_sub_bot' x) h) ?_ le_rfl⟩ <;>
  simp [dlaplace, laplace_ok', laplace_ok, dlaplace_limit_vals, h0, h1]
example : LimTop2 (fun mu => dlaplace (fin (1 / 2)) mu (fin 2)) ∧ LimBot2 (fun mu => dlaplace (fin (1 / 2)) mu (fin 2)) :=
  C43_dlaplace_mu (x := 1 / 2) (sigma := 2) (h := by meets)

theorem C43_dlaplace_sigma (x mu : ℝ) : LimTop2 (fun s => dlaplace (fin x) (fin mu) s) := by
  refine limTop2 (fun _ => C07_dlaplace _ _ _)
    ((eventually_gt_atTop 0).mono fun s hs => (C08_dlaplace mu hs).ev trivial) (Lim.laplace_wide mu x) ?_ le_rfl
  simp [dlaplace, laplace_ok', laplace_ok, dlaplace_limit_vals]

theorem plaplace_ev (mu : ℝ) {s : ℝ} (hs : 0 < s) (x : ℝ) :
    0 ≤ Lim.lapG ((x - mu) / s) ∧ plaplace (fin x) (fin mu) (fin s) false = fin (Lim.lapG ((x - mu) / s)) := by
  rw [← Lim.laplaceCdf_eq hs]
  exact ⟨(isCdf_laplace mu hs).nonneg' x, plaplace_fin mu hs x⟩

theorem C43_plaplace_mu (x : ℝ) {sigma : ℝ} (h : 0 < sigma) :
    LimTop2 (fun mu => plaplace (fin x) mu (fin sigma)) ∧ LimBot2 (fun mu => plaplace (fin x) mu (fin sigma)) := by
  have h0 : ¬ sigma < 0 := by linarith
  have h1 : ¬ sigma = 0 := by linarith
  refine ⟨limTop2 (r := 0) (fun _ => C07_plaplace _ _ _) (Eventually.of_forall fun mu => plaplace_ev mu h x)
      (Lim.lapG_bot.comp (Lim.loc_arg_top x h)) ?_ le_rfl,
    limBot2 (r := 1) (fun _ => C07_plaplace _ _ _) (Eventually.of_forall fun mu => plaplace_ev mu h x)
      (Lim.lapG_top.comp (Lim.loc_arg_bot x h)) ?_ zero_le_one⟩ <;>
  simp [plaplace, laplace_ok', laplace_ok, plaplace_limit_vals, h0, h1]
example : LimTop2 (fun mu => plaplace (fin (1 / 2)) mu (fin 2)) ∧ LimBot2 (fun mu => plaplace (fin (1 / 2)) mu (fin 2)) :=
  C43_plaplace_mu (x := 1 / 2) (sigma := 2) (h := by meets)

theorem C43_plaplace_sigma (x mu : ℝ) : LimTop2 (fun s => plaplace (fin x) (fin mu) s) := by
  refine limTop2 (r := 1 / 2) (fun _ => C07_plaplace _ _ _)
    ((eventually_gt_atTop 0).mono fun s hs => plaplace_ev mu hs x) (Lim.lapG_zero.comp (Lim.scale_arg x mu)) ?_
    (by norm_num)
  simp [plaplace, laplace_ok', laplace_ok, plaplace_limit_vals]

/-! ### Logistic -/

theorem C43_dlogis_x (mu : ℝ) {sigma : ℝ} (h : 0 < sigma) :
    LimTop2 (fun x => dlogis x (fin mu) (fin sigma)) ∧ LimBot2 (fun x => dlogis x (fin mu) (fin sigma)) := by
  have h0 : ¬ sigma < 0 := by linarith
  have h1 : ¬ sigma = 0 := by linarith
  refine ⟨limTop2 (fun _ => C07_dlogis _ _ _) (Eventually.of_forall fun x => (C08_dlogis mu h).ev trivial)
      (Lim.logis_far (Lim.abs_sub_top mu) h) ?_ le_rfl,
    limBot2 (fun _ => C07_dlogis _ _ _) (Eventually.of_forall fun x => (C08_dlogis mu h).ev trivial)
      (Lim.logis_far (Lim.abs_sub_bot mu) h) ?_ le_rfl⟩ <;>
  simp [dlogis, logis_ok', logis_ok, dlogis_limit_vals, h0, h1]
example : LimTop2 (fun x => dlogis x (fin 3) (fin 2)) ∧ LimBot2 (fun x => dlogis x (fin 3) (fin 2)) :=
  C43_dlogis_x (mu := 3) (sigma := 2) (h := by meets)

theorem C43_dlogis_mu (x : ℝ) {sigma : ℝ} (h : 0 < sigma) :
    LimTop2 (fun mu => dlogis (fin x) mu (fin sigma)) ∧ LimBot2 (fun mu => dlogis (fin x) mu (fin sigma)) := by
  have h0 : ¬ sigma < 0 := by linarith
  have h1 : ¬ sigma = 0 := by linarith
  refine ⟨limTop2 (fun _ => C07_dlogis _ _ _) (Eventually.of_forall fun mu => (C08_dlogis mu h).ev trivial)
      (Lim.logis_far (u := fun _ => x) (Lim.abs_sub_top' x) h) ?_ le_rfl,
    limBot2 (fun _ => C07_dlogis _ _ _) (Eventually.of_forall fun mu => (C08_dlogis mu h).ev trivial)
      (Lim.logis_far (u := fun _ => x) (Lim.abs_sub_bot' x) h) ?_ le_rfl⟩ <;>
  simp [dlogis, logis_ok', logis_ok, dlogis_limit_vals, h0, h1]
example : LimTop2 (fun mu => dlogis (fin (1 / 2)) mu (fin 2)) ∧ LimBot2 (fun mu => dlogis (fin (1 / 2)) mu (fin 2)) :=
  C43_dlogis_mu (x := 1 / 2) (sigma := 2) (h := by meets)

theorem C43_dlogis_sigma (x mu : ℝ) : LimTop2 (fun s => dlogis (fin x) (fin mu) s) := by
  refine limTop2 (fun _ => C07_dlogis _ _ _)
    ((eventually_gt_atTop 0).mono fun s hs => (C08_dlogis mu hs).ev trivial) (Lim.logis_wide mu x) ?_ le_rfl
  simp [dlogis, logis_ok', logis_ok, dlogis_limit_vals]

theorem plogis_ev (mu : ℝ) {s : ℝ} (hs : 0 < s) (x : ℝ) :
    0 ≤ Lim.logG ((x - mu) / s) ∧ plogis (fin x) (fin mu) (fin s) false = fin (Lim.logG ((x - mu) / s)) :=
  ⟨(isCdf_logis mu hs).nonneg' x, plogis_fin mu hs x⟩

theorem C43_plogis_mu (x : ℝ) {sigma : ℝ} (h : 0 < sigma) :
    LimTop2 (fun mu => plogis (fin x) mu (fin sigma)) ∧ LimBot2 (fun mu => plogis (fin x) mu (fin sigma)) := by
  have h0 : ¬ sigma < 0 := by linarith
  have h1 : ¬ sigma = 0 := by linarith
  refine ⟨limTop2 (r := 0) (fun _ => C07_plogis _ _ _) (Eventually.of_forall fun mu => plogis_ev mu h x)
      (Lim.logG_bot.comp (Lim.loc_arg_top x h)) ?_ le_rfl,
    limBot2 (r := 1) (fun _ => C07_plogis _ _ _) (Eventually.of_forall fun mu => plogis_ev mu h x)
      (Lim.logG_top.comp (Lim.loc_arg_bot x h)) ?_ zero_le_one⟩ <;>
  simp [plogis, logis_ok', logis_ok, plogis_limit_vals, h0, h1]
example : LimTop2 (fun mu => plogis (fin (1 / 2)) mu (fin 2)) ∧ LimBot2 (fun mu => plogis (fin (1 / 2)) mu (fin 2)) :=
  C43_plogis_mu (x := 1 / 2) (sigma := 2) (h := by meets)

theorem C43_plogis_sigma (x mu : ℝ) : LimTop2 (fun s => plogis (fin x) (fin mu) s) := by
  refine limTop2 (r := 1 / 2) (fun _ => C07_plogis _ _ _)
    ((eventually_gt_atTop 0).mono fun s hs => plogis_ev mu hs x) (Lim.logG_zero.comp (Lim.scale_arg x mu)) ?_
    (by norm_num)
  simp [plogis, logis_ok', logis_ok, plogis_limit_vals]

/-! ### Log-normal -/

theorem C43_dlnorm_x (mu : ℝ) {sigma : ℝ} (h : 0 < sigma) : LimTop2 (fun x => dlnorm x (fin mu) (fin sigma)) := by
  have h0 : ¬ sigma < 0 := by linarith
  have h1 : ¬ sigma = 0 := by linarith
  refine limTop2 (fun _ => C07_dlnorm _ _ _)
    ((eventually_gt_atTop 0).mono fun x hx => (C08_dlnorm mu h).ev hx) (Lim.lnorm_x mu h) ?_ le_rfl
  simp [dlnorm, lnorm_ok', lnorm_ok, dlnorm_limit_vals, h0, h1]
example : LimTop2 (fun x => dlnorm x (fin 3) (fin 2)) := C43_dlnorm_x (mu := 3) (sigma := 2) (h := by meets)

theorem C43_dlnorm_mu {x : ℝ} (hx : 0 < x) {sigma : ℝ} (h : 0 < sigma) :
    LimTop2 (fun mu => dlnorm (fin x) mu (fin sigma)) ∧ LimBot2 (fun mu => dlnorm (fin x) mu (fin sigma)) := by
  have h0 : ¬ sigma < 0 := by linarith
  have h1 : ¬ sigma = 0 := by linarith
  have h2 : ¬ x < 0 := by linarith
  have far : ∀ {l : Filter ℝ}, Tendsto (fun m => |Real.log x - m|) l atTop →
      Tendsto (fun m => lnormPdf m sigma x) l (𝓝 0) := by
    intro l hl
    have := (Lim.norm_far (u := fun _ => Real.log x) hl h).const_mul (1 / x)
    rw [mul_zero] at this
    exact this.congr fun m => (Lim.lnorm_eq hx).symm
  refine ⟨limTop2 (fun _ => C07_dlnorm _ _ _) (Eventually.of_forall fun mu => (C08_dlnorm mu h).ev hx)
      (far (Lim.abs_sub_top' _)) ?_ le_rfl,
    limBot2 (fun _ => C07_dlnorm _ _ _) (Eventually.of_forall fun mu => (C08_dlnorm mu h).ev hx)
      (far (Lim.abs_sub_bot' _)) ?_ le_rfl⟩ <;>
  simp [dlnorm, lnorm_ok', lnorm_ok, dlnorm_limit_vals, h0, h1, h2, ilog hx]
example : LimTop2 (fun mu => dlnorm (fin (1 / 2)) mu (fin 2)) ∧ LimBot2 (fun mu => dlnorm (fin (1 / 2)) mu (fin 2)) :=
  C43_dlnorm_mu (x := 1 / 2) (hx := by meets) (sigma := 2) (h := by meets)

theorem C43_dlnorm_sigma {x : ℝ} (hx : 0 < x) (mu : ℝ) : LimTop2 (fun s => dlnorm (fin x) (fin mu) s) := by
  have h2 : ¬ x < 0 := by linarith
  have ht : Tendsto (fun s => lnormPdf mu s x) atTop (𝓝 0) := by
    have := (Lim.norm_wide mu (Real.log x)).const_mul (1 / x)
    rw [mul_zero] at this
    exact this.congr fun m => (Lim.lnorm_eq hx).symm
  refine limTop2 (fun _ => C07_dlnorm _ _ _)
    ((eventually_gt_atTop 0).mono fun s hs => (C08_dlnorm mu hs).ev hx) ht ?_ le_rfl
  simp [dlnorm, lnorm_ok', lnorm_ok, dlnorm_limit_vals, h2, ilog hx]
example : LimTop2 (fun s => dlnorm (fin (1 / 2)) (fin 3) s) :=
  C43_dlnorm_sigma (x := 1 / 2) (hx := by meets) (mu := 3)

end Stats

import Verif.Spec.Cdf
import Verif.Props.C05
import Verif.Props.C08
import Verif.Lemmas.RealCdf2
import Verif.Lemmas.ProbIdeal
import Verif.Lemmas.ExactInst
import Verif.Lemmas.Meets

/-!
# C12 and C13: the densities integrate to one and the distribution functions are their integrals

Exact arithmetic. Each pair is reduced to a real density `f` with distribution function `F`
(`Verif/Lemmas/RealCdf*.lean`).
-/

set_option linter.unusedSectionVars false
set_option linter.unusedVariables false
open Classical MeasureTheory
namespace Stats
open Fl Spec
variable [Lib] [Ideal]

theorem coded_density {d : Fl → Bool → Fl} {f : ℝ → ℝ} (s : Finset ℝ)
    (hd : ∀ x : ℝ, x ∉ s → d (fin x) false = fin (f x)) : ∀ᵐ x : ℝ, d (fin x) false = fin (f x) := by
  filter_upwards [s.countable_toSet.ae_notMem volume] with x hx using hd x hx

theorem integratesToOne {d : Fl → Bool → Fl} {F f : ℝ → ℝ} (hF : IsCdf F f)
    (hd : ∀ᵐ x : ℝ, d (fin x) false = fin (f x)) : IntegratesToOne d := by
  have he : (fun x : ℝ => toR (d (fin x) false)) =ᵐ[volume] f := by
    filter_upwards [hd] with x hx; rw [hx]; rfl
  refine ⟨?_, hF.integrable.congr he.symm, ?_⟩
  · filter_upwards [hd, hF.nonneg] with x hx h0 using ⟨f x, h0, hx⟩
  · rw [integral_congr_ae he, hF.total]

theorem runningIntegral {d p : Fl → Bool → Fl} {F f : ℝ → ℝ} {s : Set ℝ} (hF : IsCdf F f)
    (hd : ∀ᵐ x : ℝ, d (fin x) false = fin (f x)) (hp : ∀ x ∈ s, p (fin x) false = fin (F x)) :
    RunningIntegralOn d p s := by
  intro x hx
  rw [hp x hx, ← hF.running x]
  congr 1
  refine setIntegral_congr_ae measurableSet_Iic ?_
  filter_upwards [hd] with t ht _
  rw [ht]; rfl

/-- combine the density on the support with its vanishing outside -/
theorem density_eq {d : Fl → Bool → Fl} {f : ℝ → ℝ} {s t : Set ℝ} (h1 : IsDensityOn d f s)
    (h2 : ∀ x : ℝ, Outside t (fin x) → VanishesAt (d (fin x))) (h3 : ∀ x ∉ t, f x = 0) (e : Finset ℝ)
    (hcov : ∀ x, x ∉ e → x ∈ s ∨ x ∉ t) : ∀ᵐ x : ℝ, d (fin x) false = fin (f x) := by
  refine coded_density e fun x hx => ?_
  rcases hcov x hx with h | h
  · exact (h1 x h).2.1
  · rw [(h2 x ⟨by simp, fun r hr c => by injection c with c; exact h (c ▸ hr)⟩).1, h3 x h]

theorem density_univ {d : Fl → Bool → Fl} {f : ℝ → ℝ} (h1 : IsDensityOn d f Set.univ) :
    ∀ᵐ x : ℝ, d (fin x) false = fin (f x) := coded_density ∅ fun x _ => (h1 x trivial).2.1

theorem density_pos {d : Fl → Bool → Fl} {f : ℝ → ℝ} (h1 : IsDensityOn d f (Set.Ioi 0))
    (h2 : ∀ x : ℝ, x < 0 → VanishesAt (d (fin x))) (h3 : ∀ x, x < 0 → f x = 0) :
    ∀ᵐ x : ℝ, d (fin x) false = fin (f x) := by
  refine coded_density {0} fun x hx => ?_
  rcases lt_or_gt_of_ne (show x ≠ 0 by simpa using hx) with h | h
  · rw [(h2 x h).1, h3 x h]
  · exact (h1 x h).2.1

theorem outside_Ici_fin {x : ℝ} (h : x < 0) : Outside (Set.Ici 0) (fin x) :=
  ⟨by simp, fun r hr c => by injection c with c; subst c; exact absurd h (not_lt.2 hr)⟩

/-- points outside the zone in which the code cuts off small positive arguments -/
def noCut : Set ℝ := {x | Lib.eps ≤ x ∨ x ≤ 0}

/-! ### norm -/

theorem dnorm_ae (mu : ℝ) {sigma : ℝ} (h : 0 < sigma) :
    ∀ᵐ x : ℝ, dnorm (fin x) (fin mu) (fin sigma) false = fin (normPdf mu sigma x) :=
  density_univ (C08_dnorm mu h)

theorem C12_dnorm (mu : ℝ) {sigma : ℝ} (h : 0 < sigma) : IntegratesToOne (fun x => dnorm x (fin mu) (fin sigma)) :=
  integratesToOne (isCdf_norm mu h) (dnorm_ae mu h)
example : IntegratesToOne (fun x => dnorm x (fin 3) (fin 2)) := C12_dnorm (mu := 3) (sigma := 2) (h := by meets)

theorem C13_pnorm (mu : ℝ) {sigma : ℝ} (h : 0 < sigma) :
    RunningIntegralOn (fun x => dnorm x (fin mu) (fin sigma)) (fun x => pnorm x (fin mu) (fin sigma)) Set.univ :=
  runningIntegral (isCdf_norm mu h) (dnorm_ae mu h) (fun x _ => pnorm_fin mu h x)
example : RunningIntegralOn (fun x => dnorm x (fin 3) (fin 2)) (fun x => pnorm x (fin 3) (fin 2)) Set.univ :=
  C13_pnorm (mu := 3) (sigma := 2) (h := by meets)

/-! ### lnorm -/

theorem dlnorm_ae (mu : ℝ) {sigma : ℝ} (h : 0 < sigma) :
    ∀ᵐ x : ℝ, dlnorm (fin x) (fin mu) (fin sigma) false = fin (lnormPdf mu sigma x) :=
  density_pos (C08_dlnorm mu h) (fun x hx => C05_dlnorm (outside_Ici_fin hx) mu sigma h.le) (fun x hx => if_neg hx.le.not_gt)

theorem C12_dlnorm (mu : ℝ) {sigma : ℝ} (h : 0 < sigma) : IntegratesToOne (fun x => dlnorm x (fin mu) (fin sigma)) :=
  integratesToOne (isCdf_lnorm mu h) (dlnorm_ae mu h)
example : IntegratesToOne (fun x => dlnorm x (fin 3) (fin 2)) := C12_dlnorm (mu := 3) (sigma := 2) (h := by meets)

theorem C13_plnorm (mu : ℝ) {sigma : ℝ} (h : 0 < sigma) :
    RunningIntegralOn (fun x => dlnorm x (fin mu) (fin sigma)) (fun x => plnorm x (fin mu) (fin sigma)) noCut :=
  runningIntegral (isCdf_lnorm mu h) (dlnorm_ae mu h) (fun x hx => plnorm_fin mu h x hx)
example : RunningIntegralOn (fun x => dlnorm x (fin 3) (fin 2)) (fun x => plnorm x (fin 3) (fin 2)) noCut :=
  C13_plnorm (mu := 3) (sigma := 2) (h := by meets)

/-! ### cauchy -/

theorem dcauchy_ae (mu : ℝ) {sigma : ℝ} (h : 0 < sigma) :
    ∀ᵐ x : ℝ, dcauchy (fin x) (fin mu) (fin sigma) false = fin (cauchyPdf mu sigma x) :=
  density_univ (C08_dcauchy mu h)

theorem C12_dcauchy (mu : ℝ) {sigma : ℝ} (h : 0 < sigma) : IntegratesToOne (fun x => dcauchy x (fin mu) (fin sigma)) :=
  integratesToOne (isCdf_cauchy mu h) (dcauchy_ae mu h)
example : IntegratesToOne (fun x => dcauchy x (fin 3) (fin 2)) := C12_dcauchy (mu := 3) (sigma := 2) (h := by meets)

theorem C13_pcauchy (mu : ℝ) {sigma : ℝ} (h : 0 < sigma) :
    RunningIntegralOn (fun x => dcauchy x (fin mu) (fin sigma)) (fun x => pcauchy x (fin mu) (fin sigma)) Set.univ :=
  runningIntegral (isCdf_cauchy mu h) (dcauchy_ae mu h) (fun x _ => pcauchy_fin mu h x)
example : RunningIntegralOn (fun x => dcauchy x (fin 3) (fin 2)) (fun x => pcauchy x (fin 3) (fin 2)) Set.univ :=
  C13_pcauchy (mu := 3) (sigma := 2) (h := by meets)

/-! ### laplace -/

theorem dlaplace_ae (mu : ℝ) {sigma : ℝ} (h : 0 < sigma) :
    ∀ᵐ x : ℝ, dlaplace (fin x) (fin mu) (fin sigma) false = fin (laplacePdf mu sigma x) :=
  density_univ (C08_dlaplace mu h)

theorem C12_dlaplace (mu : ℝ) {sigma : ℝ} (h : 0 < sigma) : IntegratesToOne (fun x => dlaplace x (fin mu) (fin sigma)) :=
  integratesToOne (isCdf_laplace mu h) (dlaplace_ae mu h)
example : IntegratesToOne (fun x => dlaplace x (fin 3) (fin 2)) := C12_dlaplace (mu := 3) (sigma := 2) (h := by meets)

theorem C13_plaplace (mu : ℝ) {sigma : ℝ} (h : 0 < sigma) :
    RunningIntegralOn (fun x => dlaplace x (fin mu) (fin sigma)) (fun x => plaplace x (fin mu) (fin sigma)) Set.univ :=
  runningIntegral (isCdf_laplace mu h) (dlaplace_ae mu h) (fun x _ => plaplace_fin mu h x)
example : RunningIntegralOn (fun x => dlaplace x (fin 3) (fin 2)) (fun x => plaplace x (fin 3) (fin 2)) Set.univ :=
  C13_plaplace (mu := 3) (sigma := 2) (h := by meets)

/-! ### logis -/

theorem dlogis_ae (mu : ℝ) {sigma : ℝ} (h : 0 < sigma) :
    ∀ᵐ x : ℝ, dlogis (fin x) (fin mu) (fin sigma) false = fin (logisPdf mu sigma x) :=
  density_univ (C08_dlogis mu h)

theorem C12_dlogis (mu : ℝ) {sigma : ℝ} (h : 0 < sigma) : IntegratesToOne (fun x => dlogis x (fin mu) (fin sigma)) :=
  integratesToOne (isCdf_logis mu h) (dlogis_ae mu h)
example : IntegratesToOne (fun x => dlogis x (fin 3) (fin 2)) := C12_dlogis (mu := 3) (sigma := 2) (h := by meets)

theorem C13_plogis (mu : ℝ) {sigma : ℝ} (h : 0 < sigma) :
    RunningIntegralOn (fun x => dlogis x (fin mu) (fin sigma)) (fun x => plogis x (fin mu) (fin sigma)) Set.univ :=
  runningIntegral (isCdf_logis mu h) (dlogis_ae mu h) (fun x _ => plogis_fin mu h x)
example : RunningIntegralOn (fun x => dlogis x (fin 3) (fin 2)) (fun x => plogis x (fin 3) (fin 2)) Set.univ :=
  C13_plogis (mu := 3) (sigma := 2) (h := by meets)

/-! ### unif -/

theorem dunif_ae {a b : ℝ} (h : a < b) :
    ∀ᵐ x : ℝ, dunif (fin x) (fin a) (fin b) false = fin (unifPdf a b x) :=
  density_eq (C08_dunif h) (fun x hx => C05_dunif h hx) (fun x hx => if_neg hx) ∅ (fun x _ => Classical.em _)

theorem C12_dunif {a b : ℝ} (h : a < b) : IntegratesToOne (fun x => dunif x (fin a) (fin b)) :=
  integratesToOne (isCdf_unif h) (dunif_ae h)
example : IntegratesToOne (fun x => dunif x (fin 1) (fin 4)) := C12_dunif (a := 1) (b := 4) (h := by meets)

theorem C13_punif {a b : ℝ} (h : a < b) :
    RunningIntegralOn (fun x => dunif x (fin a) (fin b)) (fun x => punif x (fin a) (fin b)) Set.univ :=
  runningIntegral (isCdf_unif h) (dunif_ae h) (fun x _ => punif_fin h x)
example : RunningIntegralOn (fun x => dunif x (fin 1) (fin 4)) (fun x => punif x (fin 1) (fin 4)) Set.univ :=
  C13_punif (a := 1) (b := 4) (h := by meets)

/-! ### exp -/

theorem dexp_ae {rate : ℝ} (h : 0 < rate) :
    ∀ᵐ x : ℝ, dexp (fin x) (fin rate) false = fin (expPdf rate x) :=
  density_eq (C08_dexp h)
      (fun x hx => (C05_dexp_partial hx h.le).1 (by simp)) (fun x hx => if_neg hx) ∅ (fun x _ => Classical.em _)

theorem C12_dexp {rate : ℝ} (h : 0 < rate) : IntegratesToOne (fun x => dexp x (fin rate)) :=
  integratesToOne (isCdf_exp h) (dexp_ae h)
example : IntegratesToOne (fun x => dexp x (fin 2)) := C12_dexp (rate := 2) (h := by meets)

theorem C13_pexp {rate : ℝ} (h : 0 < rate) :
    RunningIntegralOn (fun x => dexp x (fin rate)) (fun x => pexp x (fin rate)) Set.univ :=
  runningIntegral (isCdf_exp h) (dexp_ae h) (fun x _ => pexp_fin h x)
example : RunningIntegralOn (fun x => dexp x (fin 2)) (fun x => pexp x (fin 2)) Set.univ :=
  C13_pexp (rate := 2) (h := by meets)

/-! ### beta -/

theorem dbeta_ae {a b : ℝ} (ha : 0 < a) (hb : 0 < b) :
    ∀ᵐ x : ℝ, dbeta (fin x) (fin a) (fin b) false = fin (betaPdf a b x) :=
  density_eq (C08_dbeta ha hb) (fun x hx => C05_dbeta hx a b ha.le hb.le)
      (fun x hx => if_neg fun c => hx ⟨c.1.le, c.2.le⟩) {0, 1} (fun x hx => by
        simp only [Finset.mem_insert, Finset.mem_singleton, not_or] at hx
        by_cases h : x ∈ Set.Icc (0 : ℝ) 1
        · exact Or.inl ⟨lt_of_le_of_ne h.1 (Ne.symm hx.1), lt_of_le_of_ne h.2 hx.2⟩
        · exact Or.inr h)

theorem C12_dbeta {a b : ℝ} (ha : 0 < a) (hb : 0 < b) : IntegratesToOne (fun x => dbeta x (fin a) (fin b)) :=
  integratesToOne (isCdf_beta ha hb) (dbeta_ae ha hb)
example : IntegratesToOne (fun x => dbeta x (fin 1) (fin 4)) :=
  C12_dbeta (a := 1) (b := 4) (ha := by meets) (hb := by meets)

theorem C13_pbeta {a b : ℝ} (ha : 0 < a) (hb : 0 < b) :
    RunningIntegralOn (fun x => dbeta x (fin a) (fin b)) (fun x => pbeta x (fin a) (fin b)) Set.univ :=
  runningIntegral (isCdf_beta ha hb) (dbeta_ae ha hb) (fun x _ => pbeta_fin ha hb x)
example : RunningIntegralOn (fun x => dbeta x (fin 1) (fin 4)) (fun x => pbeta x (fin 1) (fin 4)) Set.univ :=
  C13_pbeta (a := 1) (b := 4) (ha := by meets) (hb := by meets)

/-! ### gamma -/

theorem dgamma_ae {shape scale : ℝ} (hk : 0 < shape) (hs : Lib.eps ≤ scale) :
    ∀ᵐ x : ℝ, dgamma (fin x) (fin shape) (fin scale) false = fin (gammaPdf shape scale x) :=
  density_pos (C08_dgamma hk hs) (fun x hx => C05_dgamma (outside_Ici_fin hx) shape scale hk.le hs)
      (fun x hx => if_neg hx.le.not_gt)

theorem C12_dgamma {shape scale : ℝ} (hk : 0 < shape) (hs : Lib.eps ≤ scale) : IntegratesToOne (fun x => dgamma x (fin shape) (fin scale)) :=
  integratesToOne (isCdf_gamma hk (Lib.eps_pos.trans_le hs)) (dgamma_ae hk hs)
example : IntegratesToOne (fun x => dgamma x (fin 3) (fin 2)) :=
  C12_dgamma (shape := 3) (scale := 2) (hk := by meets) (hs := by meets)

theorem C13_pgamma {shape scale : ℝ} (hk : 0 < shape) (hs : Lib.eps ≤ scale) :
    RunningIntegralOn (fun x => dgamma x (fin shape) (fin scale)) (fun x => pgamma x (fin shape) (fin scale)) noCut :=
  runningIntegral (isCdf_gamma hk (Lib.eps_pos.trans_le hs)) (dgamma_ae hk hs) (fun x hx => pgamma_fin hk hs x hx)
example : RunningIntegralOn (fun x => dgamma x (fin 3) (fin 2)) (fun x => pgamma x (fin 3) (fin 2)) noCut :=
  C13_pgamma (shape := 3) (scale := 2) (hk := by meets) (hs := by meets)

/-! ### invgamma -/

theorem dinvgamma_ae {shape rate : ℝ} (hk : 0 < shape) (hr : 0 < rate) :
    ∀ᵐ x : ℝ, dinvgamma (fin x) (fin shape) (fin rate) false = fin (invgammaPdf shape rate x) :=
  density_pos (C08_dinvgamma hk hr)
      (fun x hx => C05_dinvgamma_partial (outside_Ici_fin hx) hk.le hr.le (Or.inl (by simp)))
      (fun x hx => if_neg hx.le.not_gt)

theorem C12_dinvgamma {shape rate : ℝ} (hk : 0 < shape) (hr : 0 < rate) : IntegratesToOne (fun x => dinvgamma x (fin shape) (fin rate)) :=
  integratesToOne (isCdf_invgamma hk hr) (dinvgamma_ae hk hr)
example : IntegratesToOne (fun x => dinvgamma x (fin 3) (fin 2)) :=
  C12_dinvgamma (shape := 3) (rate := 2) (hk := by meets) (hr := by meets)

theorem C13_pinvgamma_partial {shape rate : ℝ} (hk : 0 < shape) (hr : 0 < rate) (hr' : Lib.eps ≤ 1 / rate) :
    RunningIntegralOn (fun x => dinvgamma x (fin shape) (fin rate)) (fun x => pinvgamma x (fin shape) (fin rate)) {x | Lib.eps ≤ 1 / x ∨ x ≤ 0} :=
  runningIntegral (isCdf_invgamma hk hr) (dinvgamma_ae hk hr) (fun x hx => pinvgamma_fin hk hr hr' x hx)
example : RunningIntegralOn (fun x => dinvgamma x (fin 3) (fin 2)) (fun x => pinvgamma x (fin 3) (fin 2)) {x | Lib.eps ≤ 1 / x ∨ x ≤ 0} :=
  C13_pinvgamma_partial (shape := 3) (rate := 2) (hk := by meets) (hr := by meets) (hr' := by meets)

/-! ### chisq -/

theorem dchisq_ae {dof : ℝ} (hk : 0 < dof) :
    ∀ᵐ x : ℝ, dchisq (fin x) (fin dof) false = fin (chisqPdf dof x) :=
  density_pos (C08_dchisq hk) (fun x hx => C05_dchisq (outside_Ici_fin hx) dof hk.le)
      (fun x hx => if_neg hx.le.not_gt)

theorem C12_dchisq {dof : ℝ} (hk : 0 < dof) : IntegratesToOne (fun x => dchisq x (fin dof)) :=
  integratesToOne (isCdf_chisq hk) (dchisq_ae hk)
example : IntegratesToOne (fun x => dchisq x (fin 4)) := C12_dchisq (dof := 4) (hk := by meets)

theorem C13_pchisq {dof : ℝ} (hk : 0 < dof) :
    RunningIntegralOn (fun x => dchisq x (fin dof)) (fun x => pchisq x (fin dof)) noCut :=
  runningIntegral (isCdf_chisq hk) (dchisq_ae hk) (fun x hx => pchisq_fin hk x hx)
example : RunningIntegralOn (fun x => dchisq x (fin 4)) (fun x => pchisq x (fin 4)) noCut :=
  C13_pchisq (dof := 4) (hk := by meets)

/-! ### f -/

theorem df_ae {df1 df2 : ℝ} (h1 : Lib.eps ≤ df1) (h2 : Lib.eps ≤ df2) :
    ∀ᵐ x : ℝ, df (fin x) (fin df1) (fin df2) false = fin (fPdf df1 df2 x) :=
  density_pos (C08_df h1 h2) (fun x hx => C05_df_partial (outside_Ici_fin hx) h1 h2 (Or.inl (by simp)))
      (fun x hx => if_neg hx.le.not_gt)

theorem C12_df {df1 df2 : ℝ} (h1 : Lib.eps ≤ df1) (h2 : Lib.eps ≤ df2) : IntegratesToOne (fun x => df x (fin df1) (fin df2)) :=
  integratesToOne (isCdf_f (Lib.eps_pos.trans_le h1) (Lib.eps_pos.trans_le h2)) (df_ae h1 h2)
example : IntegratesToOne (fun x => df x (fin 3) (fin 5)) :=
  C12_df (df1 := 3) (df2 := 5) (h1 := by meets) (h2 := by meets)

theorem C13_pf {df1 df2 : ℝ} (h1 : Lib.eps ≤ df1) (h2 : Lib.eps ≤ df2) :
    RunningIntegralOn (fun x => df x (fin df1) (fin df2)) (fun x => pf x (fin df1) (fin df2)) noCut :=
  runningIntegral (isCdf_f (Lib.eps_pos.trans_le h1) (Lib.eps_pos.trans_le h2)) (df_ae h1 h2) (fun x hx => pf_fin h1 h2 x hx)
example : RunningIntegralOn (fun x => df x (fin 3) (fin 5)) (fun x => pf x (fin 3) (fin 5)) noCut :=
  C13_pf (df1 := 3) (df2 := 5) (h1 := by meets) (h2 := by meets)

/-! ### t -/

theorem dt_ae {dof : ℝ} (h : Lib.eps ≤ dof) :
    ∀ᵐ x : ℝ, dt (fin x) (fin dof) false = fin (tPdf dof x) :=
  density_univ (C08_dt h)

theorem C12_dt {dof : ℝ} (h : Lib.eps ≤ dof) : IntegratesToOne (fun x => dt x (fin dof)) :=
  integratesToOne (isCdf_t (Lib.eps_pos.trans_le h)) (dt_ae h)
example : IntegratesToOne (fun x => dt x (fin 4)) := C12_dt (dof := 4) (h := by meets)

theorem C13_pt {dof : ℝ} (h : Lib.eps ≤ dof) :
    RunningIntegralOn (fun x => dt x (fin dof)) (fun x => pt x (fin dof)) Set.univ :=
  runningIntegral (isCdf_t (Lib.eps_pos.trans_le h)) (dt_ae h) (fun x _ => pt_fin h x)
example : RunningIntegralOn (fun x => dt x (fin 4)) (fun x => pt x (fin 4)) Set.univ :=
  C13_pt (dof := 4) (h := by meets)

/-! ### weibull -/

theorem dweibull_ae {shape scale : ℝ} (hk : Lib.eps ≤ shape) (hs : Lib.eps ≤ scale) :
    ∀ᵐ x : ℝ, dweibull (fin x) (fin shape) (fin scale) false = fin (weibullPdf shape scale x) :=
  density_pos (C08_dweibull hk hs) (fun x hx => C05_dweibull (outside_Ici_fin hx) shape scale hk hs)
      (fun x hx => if_neg hx.le.not_gt)

theorem C12_dweibull {shape scale : ℝ} (hk : Lib.eps ≤ shape) (hs : Lib.eps ≤ scale) : IntegratesToOne (fun x => dweibull x (fin shape) (fin scale)) :=
  integratesToOne (isCdf_weibull (Lib.eps_pos.trans_le hk) (Lib.eps_pos.trans_le hs)) (dweibull_ae hk hs)
example : IntegratesToOne (fun x => dweibull x (fin 3) (fin 2)) :=
  C12_dweibull (shape := 3) (scale := 2) (hk := by meets) (hs := by meets)

theorem C13_pweibull {shape scale : ℝ} (hk : Lib.eps ≤ shape) (hs : Lib.eps ≤ scale) :
    RunningIntegralOn (fun x => dweibull x (fin shape) (fin scale)) (fun x => pweibull x (fin shape) (fin scale)) noCut :=
  runningIntegral (isCdf_weibull (Lib.eps_pos.trans_le hk) (Lib.eps_pos.trans_le hs)) (dweibull_ae hk hs) (fun x hx => pweibull_fin hk hs x hx)
example : RunningIntegralOn (fun x => dweibull x (fin 3) (fin 2)) (fun x => pweibull x (fin 3) (fin 2)) noCut :=
  C13_pweibull (shape := 3) (scale := 2) (hk := by meets) (hs := by meets)

/-! ### invgauss -/

theorem dinvgauss_ae {mu lambda : ℝ} (hm : 0 < mu) (hl : 0 < lambda) :
    ∀ᵐ x : ℝ, dinvgauss (fin x) (fin mu) (fin lambda) false = fin (invgaussPdf mu lambda x) :=
  density_pos (C08_dinvgauss hm hl) (fun x hx => C05_dinvgauss (outside_Ici_fin hx) mu lambda hm.le hl.le)
      (fun x hx => if_neg hx.le.not_gt)

theorem C12_dinvgauss {mu lambda : ℝ} (hm : 0 < mu) (hl : 0 < lambda) : IntegratesToOne (fun x => dinvgauss x (fin mu) (fin lambda)) :=
  integratesToOne (isCdf_invgauss hm hl) (dinvgauss_ae hm hl)
example : IntegratesToOne (fun x => dinvgauss x (fin 3) (fin 2)) :=
  C12_dinvgauss (mu := 3) (lambda := 2) (hm := by meets) (hl := by meets)

theorem C13_pinvgauss {mu lambda : ℝ} (hm : 0 < mu) (hl : 0 < lambda) :
    RunningIntegralOn (fun x => dinvgauss x (fin mu) (fin lambda)) (fun x => pinvgauss x (fin mu) (fin lambda)) Set.univ :=
  runningIntegral (isCdf_invgauss hm hl) (dinvgauss_ae hm hl) (fun x _ => pinvgauss_fin hm hl x)
example : RunningIntegralOn (fun x => dinvgauss x (fin 3) (fin 2)) (fun x => pinvgauss x (fin 3) (fin 2)) Set.univ :=
  C13_pinvgauss (mu := 3) (lambda := 2) (hm := by meets) (hl := by meets)

/-! ### Examples: the statements at concrete parameters of the exact instance -/

end Stats

namespace Stats.ExamplesC12
open Fl Spec
open scoped Stats.Exact

example : IntegratesToOne (fun x => dgamma x (fin 2) (fin 3)) :=
  C12_dgamma (by norm_num) (Exact.eps_le (by norm_num))

example : IntegratesToOne (fun x => dt x (fin 5)) := C12_dt (Exact.eps_le (by norm_num))

example : pbeta (fin (1 / 3)) (fin 2) (fin 3) false =
    fin (∫ t in Set.Iic (1 / 3 : ℝ), toR (dbeta (fin t) (fin 2) (fin 3) false)) :=
  C13_pbeta (a := 2) (b := 3) (by norm_num) (by norm_num) (1 / 3) trivial

example : pinvgamma (fin 4) (fin 2) (fin 3) false =
    fin (∫ t in Set.Iic (4 : ℝ), toR (dinvgamma (fin t) (fin 2) (fin 3) false)) :=
  C13_pinvgamma_partial (shape := 2) (rate := 3) (by norm_num) (by norm_num) (Exact.eps_le (by norm_num)) 4
    (Or.inl (Exact.eps_le (by norm_num)))

end Stats.ExamplesC12

import Verif.Lemmas.Moment2
import Verif.Props.C08D
import Verif.Props.C12
import Verif.Props.C29
import Verif.Props.C31
import Verif.Props.C32
import Verif.Props.C33
import Verif.Lemmas.Meets

/-!
# C52: means and variances

In exact arithmetic each coded density has the mean and the variance of its distribution, or none where the distribution
has none; and the result of each generator has them as expectation and variance over the states of the engine.
-/

set_option linter.unusedSectionVars false
open MeasureTheory Set

namespace Stats
open Fl Spec

/-! ### from laws to the code -/

theorem IsCdf.densMoments {F f : ℝ → ℝ} (h : IsCdf F f) {d : Fl → Bool → Fl} (hd : ∀ᵐ x : ℝ, d (fin x) false = fin (f x))
    {m v : ℝ} (hm : Moments (densLaw f) m v) : DensMoments d m v :=
  ⟨f, hd, (h.integrable_dens _).1 hm.int1, (h.integrable_dens _).1 hm.int2, by rw [← h.integral_dens, hm.mean],
    by rw [← h.integral_dens (fun x => (x - m) ^ 2), hm.var]⟩

theorem IsCdf.densMean {F f : ℝ → ℝ} (h : IsCdf F f) {d : Fl → Bool → Fl} (hd : ∀ᵐ x : ℝ, d (fin x) false = fin (f x))
    {m : ℝ} (hm : Integrable (fun x : ℝ => x) (densLaw f) ∧ ∫ x, x ∂densLaw f = m) : DensMean d m :=
  ⟨f, hd, (h.integrable_dens _).1 hm.1, by rw [← h.integral_dens, hm.2]⟩

theorem MassMom.mass {p : ℤ → ℝ} {m v : ℝ} (h : MassMom p m v) {d : ℤ → Bool → Fl} (hd : ∀ k, d k false = fin (p k)) :
    MassMoments d m v := ⟨p, hd, h.mean, h.var⟩

section
variable {S : Type*} [MeasurableSpace S] {P : Measure S} {g : S → Option (Fl × S)} {D : Measure ℝ}

theorem law_fst [IsProbabilityMeasure P] (h : HasLaw P g D) :
    ∃ X : S → ℝ, Measurable X ∧ (∀ᵐ s ∂P, ∃ s', g s = some (fin (X s), s')) ∧ P.map X = D := by
  obtain ⟨X, N, hX, hN, e, hl⟩ := h
  refine ⟨X, hX, e.mono fun s hs => ⟨_, hs⟩, ?_⟩
  have : P.map X = (P.map fun s => (X s, N s)).map Prod.fst := by
    rw [Measure.map_map measurable_fst (hX.prodMk hN)]; rfl
  rw [this, hl, Measure.map_fst_prod, measure_univ, one_smul]

theorem Spec.RandMoments.of_law (hP : IsProbabilityMeasure P) (h : HasLaw P g D) {m v : ℝ} (hm : Moments D m v) :
    RandMoments P g m v := by
  obtain ⟨X, hX, e, rfl⟩ := law_fst h
  refine ⟨X, e, (integrable_map_measure (g := fun x : ℝ => x) (by fun_prop) hX.aemeasurable).1 hm.int1,
    (integrable_map_measure (g := fun x : ℝ => x ^ 2) (by fun_prop) hX.aemeasurable).1 hm.int2, ?_, ?_⟩
  · rw [← hm.mean, integral_map hX.aemeasurable (by fun_prop)]
  · rw [← hm.var, integral_map hX.aemeasurable (by fun_prop)]

theorem Spec.RandMean.of_law (hP : IsProbabilityMeasure P) (h : HasLaw P g D) {m : ℝ}
    (hm : Integrable (fun x : ℝ => x) D ∧ ∫ x, x ∂D = m) : RandMean P g m := by
  obtain ⟨X, hX, e, rfl⟩ := law_fst h
  refine ⟨X, e, (integrable_map_measure (g := fun x : ℝ => x) (by fun_prop) hX.aemeasurable).1 hm.1, ?_⟩
  rw [← hm.2, integral_map hX.aemeasurable (by fun_prop)]

theorem Spec.RandNoMean.of_law (hP : IsProbabilityMeasure P) {F f : ℝ → ℝ} (hF : IsCdf F f) (h : HasLaw P g (densLaw f))
    (hm : ¬ Integrable fun x => x * f x) : RandNoMean P g := by
  obtain ⟨X, hX, e, hl⟩ := law_fst h
  refine ⟨X, e, fun hi => hm ((hF.integrable_dens _).1 ?_)⟩
  rw [← hl]
  exact (integrable_map_measure (g := fun x : ℝ => x) (by fun_prop) hX.aemeasurable).2 hi
end

section Dens
variable [Lib] [Ideal]

/-! ### densities -/

/-- The mean is `mu`, the variance `sigma^2`. -/
theorem C52_dnorm (mu : ℝ) {sigma : ℝ} (h : 0 < sigma) :
    DensMoments (fun x => dnorm x (fin mu) (fin sigma)) mu
      (sigma ^ 2) :=
  (isCdf_norm mu h).densMoments (dnorm_ae mu h) (moments_norm mu h)
example : DensMoments (fun x => dnorm x (fin 3) (fin 2)) 3 (2 ^ 2) := C52_dnorm (mu := 3) (sigma := 2) (h := by meets)

theorem C52_dlnorm (mu : ℝ) {sigma : ℝ} (h : 0 < sigma) :
    DensMoments (fun x => dlnorm x (fin mu) (fin sigma)) (Real.exp (mu + sigma ^ 2 / 2))
      ((Real.exp (sigma ^ 2) - 1) * Real.exp (2 * mu + sigma ^ 2)) :=
  (isCdf_lnorm mu h).densMoments (dlnorm_ae mu h) (moments_lnorm mu h)
example : DensMoments (fun x => dlnorm x (fin 3) (fin 2)) (Real.exp (3 + 2 ^ 2 / 2))
      ((Real.exp (2 ^ 2) - 1) * Real.exp (2 * 3 + 2 ^ 2)) :=
  C52_dlnorm (mu := 3) (sigma := 2) (h := by meets)

theorem C52_dunif {a b : ℝ} (h : a < b) :
    DensMoments (fun x => dunif x (fin a) (fin b)) ((a + b) / 2)
      ((b - a) ^ 2 / 12) :=
  (isCdf_unif h).densMoments (dunif_ae h) (moments_unif h)
example : DensMoments (fun x => dunif x (fin 1) (fin 4)) ((1 + 4) / 2)
      ((4 - 1) ^ 2 / 12) :=
  C52_dunif (a := 1) (b := 4) (h := by meets)

theorem C52_dexp {rate : ℝ} (h : 0 < rate) :
    DensMoments (fun x => dexp x (fin rate)) (1 / rate)
      (1 / rate ^ 2) :=
  (isCdf_exp h).densMoments (dexp_ae h) (moments_exp h)
example : DensMoments (fun x => dexp x (fin 2)) (1 / 2) (1 / 2 ^ 2) := C52_dexp (rate := 2) (h := by meets)

theorem C52_dlaplace (mu : ℝ) {sigma : ℝ} (h : 0 < sigma) :
    DensMoments (fun x => dlaplace x (fin mu) (fin sigma)) mu
      (2 * sigma ^ 2) :=
  (isCdf_laplace mu h).densMoments (dlaplace_ae mu h) (moments_laplace mu h)
example : DensMoments (fun x => dlaplace x (fin 3) (fin 2)) 3
      (2 * 2 ^ 2) :=
  C52_dlaplace (mu := 3) (sigma := 2) (h := by meets)

theorem C52_dlogis (mu : ℝ) {sigma : ℝ} (h : 0 < sigma) :
    DensMoments (fun x => dlogis x (fin mu) (fin sigma)) mu
      (sigma ^ 2 * Real.pi ^ 2 / 3) :=
  (isCdf_logis mu h).densMoments (dlogis_ae mu h) (moments_logis mu h)
example : DensMoments (fun x => dlogis x (fin 3) (fin 2)) 3
      (2 ^ 2 * Real.pi ^ 2 / 3) :=
  C52_dlogis (mu := 3) (sigma := 2) (h := by meets)

theorem C52_dgamma {shape scale : ℝ} (hk : 0 < shape) (hs : Lib.eps ≤ scale) :
    DensMoments (fun x => dgamma x (fin shape) (fin scale)) (shape * scale)
      (shape * scale ^ 2) :=
  (isCdf_gamma hk (Lib.eps_pos.trans_le hs)).densMoments (dgamma_ae hk hs) (moments_gamma hk (Lib.eps_pos.trans_le hs))
example : DensMoments (fun x => dgamma x (fin 3) (fin 2)) (3 * 2)
      (3 * 2 ^ 2) :=
  C52_dgamma (shape := 3) (scale := 2) (hk := by meets) (hs := by meets)

theorem C52_dchisq {dof : ℝ} (h : 0 < dof) :
    DensMoments (fun x => dchisq x (fin dof)) dof
      (2 * dof) :=
  (isCdf_chisq h).densMoments (dchisq_ae h) (moments_chisq h)
example : DensMoments (fun x => dchisq x (fin 4)) 4 (2 * 4) := C52_dchisq (dof := 4) (h := by meets)

theorem C52_dbeta {a b : ℝ} (ha : 0 < a) (hb : 0 < b) :
    DensMoments (fun x => dbeta x (fin a) (fin b)) (a / (a + b))
      (a * b / ((a + b) ^ 2 * (a + b + 1))) :=
  (isCdf_beta ha hb).densMoments (dbeta_ae ha hb) (moments_beta ha hb)
example : DensMoments (fun x => dbeta x (fin 1) (fin 4)) (1 / (1 + 4))
      (1 * 4 / ((1 + 4) ^ 2 * (1 + 4 + 1))) :=
  C52_dbeta (a := 1) (b := 4) (ha := by meets) (hb := by meets)

theorem C52_dweibull {shape scale : ℝ} (hk : Lib.eps ≤ shape) (hs : Lib.eps ≤ scale) :
    DensMoments (fun x => dweibull x (fin shape) (fin scale)) (scale * Real.Gamma (1 + 1 / shape))
      (scale ^ 2 * (Real.Gamma (1 + 2 / shape) - Real.Gamma (1 + 1 / shape) ^ 2)) :=
  (isCdf_weibull (Lib.eps_pos.trans_le hk) (Lib.eps_pos.trans_le hs)).densMoments (dweibull_ae hk hs) (moments_weibull (Lib.eps_pos.trans_le hk) (Lib.eps_pos.trans_le hs))
example : DensMoments (fun x => dweibull x (fin 3) (fin 2)) (2 * Real.Gamma (1 + 1 / 3))
      (2 ^ 2 * (Real.Gamma (1 + 2 / 3) - Real.Gamma (1 + 1 / 3) ^ 2)) :=
  C52_dweibull (shape := 3) (scale := 2) (hk := by meets) (hs := by meets)

theorem C52_dinvgauss {mu lambda : ℝ} (hm : 0 < mu) (hl : 0 < lambda) :
    DensMoments (fun x => dinvgauss x (fin mu) (fin lambda)) mu
      (mu ^ 3 / lambda) :=
  (isCdf_invgauss hm hl).densMoments (dinvgauss_ae hm hl) (moments_invgauss hm hl)
example : DensMoments (fun x => dinvgauss x (fin 3) (fin 2)) 3
      (3 ^ 3 / 2) :=
  C52_dinvgauss (mu := 3) (lambda := 2) (hm := by meets) (hl := by meets)

theorem C52_dinvgamma {shape rate : ℝ} (hk : 2 < shape) (hr : 0 < rate) :
    DensMoments (fun x => dinvgamma x (fin shape) (fin rate)) (rate / (shape - 1))
      (rate ^ 2 / ((shape - 1) ^ 2 * (shape - 2))) :=
  have h0 : 0 < shape := by linarith
  (isCdf_invgamma h0 hr).densMoments (dinvgamma_ae h0 hr) (moments_invgamma hk hr)
example : DensMoments (fun x => dinvgamma x (fin 3) (fin 2)) (2 / (3 - 1))
      (2 ^ 2 / ((3 - 1) ^ 2 * (3 - 2))) :=
  C52_dinvgamma (shape := 3) (rate := 2) (hk := by meets) (hr := by meets)

theorem C52_dinvgamma_mean {shape rate : ℝ} (hk : 1 < shape) (hr : 0 < rate) :
    DensMean (fun x => dinvgamma x (fin shape) (fin rate)) (rate / (shape - 1)) :=
  have h0 : 0 < shape := by linarith
  (isCdf_invgamma h0 hr).densMean (dinvgamma_ae h0 hr) (mean_invgamma hk hr)
example : DensMean (fun x => dinvgamma x (fin 3) (fin 2)) (2 / (3 - 1)) :=
  C52_dinvgamma_mean (shape := 3) (rate := 2) (hk := by meets) (hr := by meets)

/-- With a shape up to one there is no mean. -/
theorem C52_dinvgamma_none {shape rate : ℝ} (h0 : 0 < shape) (hk : shape ≤ 1) (hr : 0 < rate) :
    DensNoMean (fun x => dinvgamma x (fin shape) (fin rate)) :=
  ⟨_, dinvgamma_ae h0 hr, no_mean_invgamma h0 hk hr⟩
example : DensNoMean (fun x => dinvgamma x (fin (1 / 2)) (fin 2)) :=
  C52_dinvgamma_none (shape := 1 / 2) (rate := 2) (h0 := by meets) (hk := by meets) (hr := by meets)

theorem C52_df {df1 df2 : ℝ} (h1 : Lib.eps ≤ df1) (he : Lib.eps ≤ df2) (h2 : 4 < df2) :
    DensMoments (fun x => df x (fin df1) (fin df2)) (df2 / (df2 - 2))
      (2 * df2 ^ 2 * (df1 + df2 - 2) / (df1 * (df2 - 2) ^ 2 * (df2 - 4))) :=
  have p1 := Lib.eps_pos.trans_le h1
  (isCdf_f p1 (Lib.eps_pos.trans_le he)).densMoments (df_ae h1 he) (moments_f p1 h2)
example : DensMoments (fun x => df x (fin 3) (fin 5)) (5 / (5 - 2))
      (2 * 5 ^ 2 * (3 + 5 - 2) / (3 * (5 - 2) ^ 2 * (5 - 4))) :=
  C52_df (df1 := 3) (df2 := 5) (h1 := by meets) (he := by meets) (h2 := by meets)

theorem C52_df_mean {df1 df2 : ℝ} (h1 : Lib.eps ≤ df1) (he : Lib.eps ≤ df2) (h2 : 2 < df2) :
    DensMean (fun x => df x (fin df1) (fin df2)) (df2 / (df2 - 2)) :=
  have p1 := Lib.eps_pos.trans_le h1
  (isCdf_f p1 (Lib.eps_pos.trans_le he)).densMean (df_ae h1 he) (mean_f p1 h2)
example : DensMean (fun x => df x (fin 3) (fin 5)) (5 / (5 - 2)) :=
  C52_df_mean (df1 := 3) (df2 := 5) (h1 := by meets) (he := by meets) (h2 := by meets)

theorem C52_df_none {df1 df2 : ℝ} (h1 : Lib.eps ≤ df1) (he : Lib.eps ≤ df2) (h2 : df2 ≤ 2) :
    DensNoMean (fun x => df x (fin df1) (fin df2)) :=
  ⟨_, df_ae h1 he, no_mean_f (Lib.eps_pos.trans_le h1) (Lib.eps_pos.trans_le he) h2⟩

theorem C52_dt {dof : ℝ} (he : Lib.eps ≤ dof) (h : 2 < dof) :
    DensMoments (fun x => dt x (fin dof)) 0 (dof / (dof - 2)) :=
  (isCdf_t (Lib.eps_pos.trans_le he)).densMoments (dt_ae he) (moments_t h)
example : DensMoments (fun x => dt x (fin 4)) 0 (4 / (4 - 2)) := C52_dt (dof := 4) (he := by meets) (h := by meets)

theorem C52_dt_mean {dof : ℝ} (he : Lib.eps ≤ dof) (h : 1 < dof) : DensMean (fun x => dt x (fin dof)) 0 :=
  (isCdf_t (Lib.eps_pos.trans_le he)).densMean (dt_ae he) (mean_t h)
example : DensMean (fun x => dt x (fin 4)) 0 := C52_dt_mean (dof := 4) (he := by meets) (h := by meets)

theorem C52_dt_none {dof : ℝ} (he : Lib.eps ≤ dof) (h : dof ≤ 1) : DensNoMean (fun x => dt x (fin dof)) :=
  ⟨_, dt_ae he, no_mean_t (Lib.eps_pos.trans_le he) h⟩

/-- The Cauchy density has no mean. -/
theorem C52_dcauchy_none (mu : ℝ) {sigma : ℝ} (h : 0 < sigma) :
    DensNoMean (fun x => dcauchy x (fin mu) (fin sigma)) :=
  ⟨_, dcauchy_ae mu h, no_mean_cauchy mu h⟩
example : DensNoMean (fun x => dcauchy x (fin 3) (fin 2)) := C52_dcauchy_none (mu := 3) (sigma := 2) (h := by meets)

/-! ### point probabilities -/

theorem C52_dbern {p : ℝ} (h0 : 0 ≤ p) (h1 : p ≤ 1) : MassMoments (fun k => dbern k (fin p)) p (p * (1 - p)) :=
  (massMom_bern h0 h1).mass fun k => (C08_dbern h0 h1 k).2.1
example : MassMoments (fun k => dbern k (fin (1 / 3))) (1 / 3) ((1 / 3) * (1 - (1 / 3))) :=
  C52_dbern (p := 1 / 3) (h0 := by meets) (h1 := by meets)

theorem C52_dradem {p : ℝ} (h0 : 0 ≤ p) (h1 : p ≤ 1) :
    MassMoments (fun k => dradem k (fin p)) (2 * p - 1) (4 * p * (1 - p)) :=
  (massMom_radem h0 h1).mass fun k => (C08_dradem h0 h1 k).2.1
example : MassMoments (fun k => dradem k (fin (1 / 3))) (2 * (1 / 3) - 1) (4 * (1 / 3) * (1 - (1 / 3))) :=
  C52_dradem (p := 1 / 3) (h0 := by meets) (h1 := by meets)

theorem C52_dbinom (n : ℕ) {p : ℝ} (h0 : 0 ≤ p) (h1 : p ≤ 1) :
    MassMoments (fun k => dbinom k n (fin p)) (n * p) (n * p * (1 - p)) :=
  (massMom_binom n h0 h1).mass fun k => (C08_dbinom n h0 h1 k).2.1
example : MassMoments (fun k => dbinom k 5 (fin (1 / 3))) (5 * (1 / 3)) (5 * (1 / 3) * (1 - (1 / 3))) :=
  C52_dbinom (n := 5) (p := 1 / 3) (h0 := by meets) (h1 := by meets)

theorem C52_dpois {rate : ℝ} (h : 0 ≤ rate) : MassMoments (fun k => dpois k (fin rate)) rate rate :=
  (massMom_pois h).mass fun k => (C08_dpois h k).2.1
example : MassMoments (fun k => dpois k (fin 2)) 2 2 := C52_dpois (rate := 2) (h := by meets)

end Dens

section Rand
variable [Lib] [Ideal] {S : Type*} [MeasurableSpace S] [Engine S] {P : Measure S}

/-! ### generators -/

/-- The interval of `runif` begins at the number after `a`. -/
theorem C52_runif (hP : FairEngine P) {a b : ℝ} (h : Lib.next a b < b) (hab : a < b) :
    RandMoments P (fun s => some (runif (fin a) (fin b) s)) ((Lib.next a b + b) / 2) ((b - Lib.next a b) ^ 2 / 12) :=
  .of_law hP.prob (C29_runif hP h hab) (moments_unif h)

theorem C52_rexp (hP : FairEngine P) (hn : Lib.next 0 1 = 0) {rate : ℝ} (h : 0 < rate) :
    RandMoments P (fun s => some (rexp (fin rate) s)) (1 / rate)
      (1 / rate ^ 2) :=
  .of_law hP.prob (C29_rexp hP hn h) (moments_exp h)

theorem C52_rlaplace (hP : FairEngine P) (hn : Lib.next 0 1 = 0) (mu : ℝ) {sigma : ℝ} (h : 0 < sigma) :
    RandMoments P (fun s => some (rlaplace (fin mu) (fin sigma) s)) mu
      (2 * sigma ^ 2) :=
  .of_law hP.prob (C29_rlaplace hP hn mu h) (moments_laplace mu h)

theorem C52_rlogis (hP : FairEngine P) (hn : Lib.next 0 1 = 0) (mu : ℝ) {sigma : ℝ} (h : 0 < sigma) :
    RandMoments P (fun s => some (rlogis (fin mu) (fin sigma) s)) mu
      (sigma ^ 2 * Real.pi ^ 2 / 3) :=
  .of_law hP.prob (C29_rlogis hP hn mu h) (moments_logis mu h)

theorem C52_rweibull (hP : FairEngine P) (hn : Lib.next 0 1 = 0) {shape scale : ℝ} (hk : Lib.eps ≤ shape) (hs : Lib.eps ≤ scale) :
    RandMoments P (fun s => some (rweibull (fin shape) (fin scale) s)) (scale * Real.Gamma (1 + 1 / shape))
      (scale ^ 2 * (Real.Gamma (1 + 2 / shape) - Real.Gamma (1 + 1 / shape) ^ 2)) :=
  .of_law hP.prob (C29_rweibull hP hn hk hs) (moments_weibull (Lib.eps_pos.trans_le hk) (Lib.eps_pos.trans_le hs))

theorem C52_rgamma (hP : FairEngine P) (hn : Lib.next 0 1 = 0) {shape scale : ℝ} (hk : 0 < shape) (hs : Lib.eps ≤ scale) :
    RandMoments P (rgamma (fin shape) (fin scale)) (shape * scale)
      (shape * scale ^ 2) :=
  .of_law hP.prob (C31_rgamma hP hn hk hs) (moments_gamma hk (Lib.eps_pos.trans_le hs))

theorem C52_rnorm (hP : FairEngine P) (mu : ℝ) {sigma : ℝ} (h : 0 < sigma) :
    RandMoments P (fun s => some (rnorm (fin mu) (fin sigma) s)) mu
      (sigma ^ 2) :=
  .of_law hP.prob (C32_rnorm hP mu h) (moments_norm mu h)

theorem C52_rlnorm (hP : FairEngine P) (mu : ℝ) {sigma : ℝ} (h : 0 < sigma) :
    RandMoments P (fun s => some (rlnorm (fin mu) (fin sigma) s)) (Real.exp (mu + sigma ^ 2 / 2))
      ((Real.exp (sigma ^ 2) - 1) * Real.exp (2 * mu + sigma ^ 2)) :=
  .of_law hP.prob (C32_rlnorm hP mu h) (moments_lnorm mu h)

theorem C52_rchisq (hP : FairEngine P) (hn : Lib.next 0 1 = 0) {dof : ℝ} (h : 0 < dof) :
    RandMoments P (rchisq (fin dof)) dof
      (2 * dof) :=
  .of_law hP.prob (C32_rchisq hP hn h) (moments_chisq h)

theorem C52_rbeta (hP : FairEngine P) (hn : Lib.next 0 1 = 0) {a b : ℝ} (ha : 0 < a) (hb : 0 < b) :
    RandMoments P (rbeta (fin a) (fin b)) (a / (a + b))
      (a * b / ((a + b) ^ 2 * (a + b + 1))) :=
  .of_law hP.prob (C32_rbeta hP hn ha hb) (moments_beta ha hb)

theorem C52_rinvgauss (hP : FairEngine P) (hn : Lib.next 0 1 = 0) {mu lambda : ℝ} (hm : 0 < mu) (hl : 0 < lambda) :
    RandMoments P (fun s => some (rinvgauss (fin mu) (fin lambda) s)) mu
      (mu ^ 3 / lambda) :=
  .of_law hP.prob (C33_rinvgauss hP hn hm hl) (moments_invgauss hm hl)

/-- With standard deviation zero `rnorm` returns the mean. -/
theorem C52_rnorm_zero (hP : FairEngine P) (mu : ℝ) :
    RandMoments P (fun s => some (rnorm (fin mu) (fin 0) s)) mu 0 :=
  .of_law hP.prob (C32_rnorm_zero hP mu)
    ⟨integrable_dirac (by simp), integrable_dirac (by simp), integral_dirac _ _, by rw [integral_dirac]; simp⟩

theorem C52_rcauchy_none (hP : FairEngine P) (hn : Lib.next 0 1 = 0) (mu : ℝ) {sigma : ℝ} (h : 0 < sigma) :
    RandNoMean P (fun s => some (rcauchy (fin mu) (fin sigma) s)) :=
  .of_law hP.prob (isCdf_cauchy mu h) (C29_rcauchy hP hn mu h) (no_mean_cauchy mu h)

/-- Missing: rates above the reciprocal of the machine epsilon, for which `rinvgamma` returns NaN
(`C32_rinvgamma_violated`). -/
theorem C52_rinvgamma_partial (hP : FairEngine P) (hn : Lib.next 0 1 = 0) {α β : ℝ} (ha : 2 < α) (hb0 : 0 < β)
    (hb1 : Lib.eps ≤ 1 / β) :
    RandMoments P (rinvgamma (fin α) (fin β)) (β / (α - 1)) (β ^ 2 / ((α - 1) ^ 2 * (α - 2))) :=
  .of_law hP.prob (C32_rinvgamma_partial hP hn (by linarith) hb0 hb1) (moments_invgamma ha hb0)

theorem C52_rinvgamma_mean_partial (hP : FairEngine P) (hn : Lib.next 0 1 = 0) {α β : ℝ} (ha : 1 < α) (hb0 : 0 < β)
    (hb1 : Lib.eps ≤ 1 / β) : RandMean P (rinvgamma (fin α) (fin β)) (β / (α - 1)) :=
  .of_law hP.prob (C32_rinvgamma_partial hP hn (by linarith) hb0 hb1) (mean_invgamma ha hb0)

theorem C52_rinvgamma_none_partial (hP : FairEngine P) (hn : Lib.next 0 1 = 0) {α β : ℝ} (h0 : 0 < α) (ha : α ≤ 1)
    (hb0 : 0 < β) (hb1 : Lib.eps ≤ 1 / β) : RandNoMean P (rinvgamma (fin α) (fin β)) :=
  .of_law hP.prob (isCdf_invgamma h0 hb0) (C32_rinvgamma_partial hP hn h0 hb0 hb1) (no_mean_invgamma h0 ha hb0)

theorem C52_rf (hP : FairEngine P) (hn : Lib.next 0 1 = 0) {d₁ d₂ : ℝ} (h1 : Lib.eps ≤ d₁) (he : Lib.eps ≤ d₂) (h2 : 4 < d₂) :
    RandMoments P (rf (fin d₁) (fin d₂)) (d₂ / (d₂ - 2))
      (2 * d₂ ^ 2 * (d₁ + d₂ - 2) / (d₁ * (d₂ - 2) ^ 2 * (d₂ - 4))) :=
  .of_law hP.prob (C32_rf hP hn h1 he) (moments_f (Lib.eps_pos.trans_le h1) h2)

theorem C52_rf_mean (hP : FairEngine P) (hn : Lib.next 0 1 = 0) {d₁ d₂ : ℝ} (h1 : Lib.eps ≤ d₁) (he : Lib.eps ≤ d₂)
    (h2 : 2 < d₂) : RandMean P (rf (fin d₁) (fin d₂)) (d₂ / (d₂ - 2)) :=
  .of_law hP.prob (C32_rf hP hn h1 he) (mean_f (Lib.eps_pos.trans_le h1) h2)

theorem C52_rf_none (hP : FairEngine P) (hn : Lib.next 0 1 = 0) {d₁ d₂ : ℝ} (h1 : Lib.eps ≤ d₁) (he : Lib.eps ≤ d₂)
    (h2 : d₂ ≤ 2) : RandNoMean P (rf (fin d₁) (fin d₂)) :=
  have p1 := Lib.eps_pos.trans_le h1
  have p2 := Lib.eps_pos.trans_le he
  .of_law hP.prob (isCdf_f p1 p2) (C32_rf hP hn h1 he) (no_mean_f p1 p2 h2)

theorem C52_rt (hP : FairEngine P) (hn : Lib.next 0 1 = 0) {ν : ℝ} (he : Lib.eps ≤ ν) (h : 2 < ν) :
    RandMoments P (rt (fin ν)) 0 (ν / (ν - 2)) :=
  .of_law hP.prob (C32_rt hP hn he) (moments_t h)

theorem C52_rt_mean (hP : FairEngine P) (hn : Lib.next 0 1 = 0) {ν : ℝ} (he : Lib.eps ≤ ν) (h : 1 < ν) :
    RandMean P (rt (fin ν)) 0 :=
  .of_law hP.prob (C32_rt hP hn he) (mean_t h)

theorem C52_rt_none (hP : FairEngine P) (hn : Lib.next 0 1 = 0) {ν : ℝ} (he : Lib.eps ≤ ν) (h : ν ≤ 1) :
    RandNoMean P (rt (fin ν)) :=
  have p := Lib.eps_pos.trans_le he
  .of_law hP.prob (isCdf_t p) (C32_rt hP hn he) (no_mean_t p h)

theorem C52_rbern (hP : FairEngine P) (hn : Lib.next 0 1 = 0) {p : ℝ} (h0 : 0 ≤ p) (h1 : p ≤ 1) :
    RandMoments P (fun s => some (rbern (fin p) s)) p (p * (1 - p)) :=
  .of_law hP.prob (C29_rbern hP hn h0 h1) (massMom_bern h0 h1).moments

theorem C52_rradem (hP : FairEngine P) (hn : Lib.next 0 1 = 0) {p : ℝ} (h0 : 0 ≤ p) (h1 : p ≤ 1) :
    RandMoments P (fun s => some (rradem (fin p) s)) (2 * p - 1) (4 * p * (1 - p)) :=
  .of_law hP.prob (C29_rradem hP hn h0 h1) (massMom_radem h0 h1).moments

theorem C52_rbinom (hP : FairEngine P) (hn : Lib.next 0 1 = 0) {p : ℝ} (h0 : 0 ≤ p) (h1 : p ≤ 1) (n : ℕ) :
    RandMoments P (fun s => some (rbinom n (fin p) s)) (n * p) (n * p * (1 - p)) :=
  .of_law hP.prob (C30_rbinom hP hn h0 h1 n) (massMom_binom n h0 h1).moments

theorem C52_rpois (hP : FairEngine P) (hn : Lib.next 0 1 = 0) {rate : ℝ} (hr : Lib.eps ≤ rate) :
    RandMoments P (rpois (fin rate)) rate rate :=
  .of_law hP.prob (C29_rpois hP hn hr) (massMom_pois (Lib.eps_pos.le.trans hr)).moments

end Rand

end Stats

namespace Stats.ExamplesC52
open Fl Spec
open scoped Stats.Fair

example : RandMoments Tape.tapeLaw (fun s => some (rexp (fin 2) s)) (1 / 2) (1 / 2 ^ 2) :=
  C52_rexp Tape.fair Fair.next (by norm_num)
example : RandMoments Tape.tapeLaw (fun s => some (rlaplace (fin 1) (fin 3) s)) 1 (2 * 3 ^ 2) :=
  C52_rlaplace Tape.fair Fair.next 1 (by norm_num)
example : RandMoments Tape.tapeLaw (fun s => some (rlogis (fin 1) (fin 3) s)) 1 (3 ^ 2 * Real.pi ^ 2 / 3) :=
  C52_rlogis Tape.fair Fair.next 1 (by norm_num)
example : RandMoments Tape.tapeLaw (fun s => some (rweibull (fin 2) (fin 3) s)) (3 * Real.Gamma (1 + 1 / 2)) (3 ^ 2 * (Real.Gamma (1 + 2 / 2) - Real.Gamma (1 + 1 / 2) ^ 2)) :=
  C52_rweibull Tape.fair Fair.next (Fair.eps_le (by norm_num)) (Fair.eps_le (by norm_num))
example : RandMoments Tape.tapeLaw (rgamma (fin (5 / 2)) (fin 3)) (5 / 2 * 3) (5 / 2 * 3 ^ 2) :=
  C52_rgamma Tape.fair Fair.next (by norm_num) (Fair.eps_le (by norm_num))
example : RandMoments Tape.tapeLaw (fun s => some (rnorm (fin 1) (fin 3) s)) 1 (3 ^ 2) :=
  C52_rnorm Tape.fair 1 (by norm_num)
example : RandMoments Tape.tapeLaw (fun s => some (rlnorm (fin 1) (fin 3) s)) (Real.exp (1 + 3 ^ 2 / 2)) ((Real.exp (3 ^ 2) - 1) * Real.exp (2 * 1 + 3 ^ 2)) :=
  C52_rlnorm Tape.fair 1 (by norm_num)
example : RandMoments Tape.tapeLaw (rchisq (fin 5)) 5 (2 * 5) :=
  C52_rchisq Tape.fair Fair.next (by norm_num)
example : RandMoments Tape.tapeLaw (rbeta (fin (1 / 2)) (fin 3)) (1 / 2 / (1 / 2 + 3)) (1 / 2 * 3 / ((1 / 2 + 3) ^ 2 * (1 / 2 + 3 + 1))) :=
  C52_rbeta Tape.fair Fair.next (by norm_num) (by norm_num)
example : RandMoments Tape.tapeLaw (fun s => some (rinvgauss (fin 2) (fin 3) s)) 2 (2 ^ 3 / 3) :=
  C52_rinvgauss Tape.fair Fair.next (by norm_num) (by norm_num)
example : RandMoments Tape.tapeLaw (fun s => some (rnorm (fin 7) (fin 0) s)) 7 0 :=
  C52_rnorm_zero Tape.fair 7
example : RandMoments Tape.tapeLaw (rinvgamma (fin 5) (fin 3)) (3 / (5 - 1)) (3 ^ 2 / ((5 - 1) ^ 2 * (5 - 2))) :=
  C52_rinvgamma_partial Tape.fair Fair.next (by norm_num) (by norm_num) (Fair.eps_le (by norm_num))
example : RandMoments Tape.tapeLaw (rf (fin 3) (fin 5)) (5 / (5 - 2)) (2 * 5 ^ 2 * (3 + 5 - 2) / (3 * (5 - 2) ^ 2 * (5 - 4))) :=
  C52_rf Tape.fair Fair.next (Fair.eps_le (by norm_num)) (Fair.eps_le (by norm_num)) (by norm_num)
example : RandMoments Tape.tapeLaw (rt (fin 3)) 0 (3 / (3 - 2)) :=
  C52_rt Tape.fair Fair.next (Fair.eps_le (by norm_num)) (by norm_num)
example : RandMoments Tape.tapeLaw (fun s => some (rbern (fin (1 / 3)) s)) (1 / 3) (1 / 3 * (1 - 1 / 3)) :=
  C52_rbern Tape.fair Fair.next (by norm_num) (by norm_num)
example : RandMoments Tape.tapeLaw (fun s => some (rradem (fin (1 / 3)) s)) (2 * (1 / 3) - 1) (4 * (1 / 3) * (1 - 1 / 3)) :=
  C52_rradem Tape.fair Fair.next (by norm_num) (by norm_num)
example : RandMoments Tape.tapeLaw (fun s => some (rbinom (7 : ℕ) (fin (1 / 3)) s)) ((7 : ℕ) * (1 / 3)) ((7 : ℕ) * (1 / 3) * (1 - 1 / 3)) :=
  C52_rbinom Tape.fair Fair.next (by norm_num) (by norm_num) 7
example : RandMoments Tape.tapeLaw (rpois (fin 5)) 5 5 :=
  C52_rpois Tape.fair Fair.next (Fair.eps_le (by norm_num))
example : RandMean Tape.tapeLaw (rinvgamma (fin (3 / 2)) (fin 3)) (3 / (3 / 2 - 1)) :=
  C52_rinvgamma_mean_partial Tape.fair Fair.next (by norm_num) (by norm_num) (Fair.eps_le (by norm_num))
example : RandMean Tape.tapeLaw (rf (fin 3) (fin 3)) (3 / (3 - 2)) :=
  C52_rf_mean Tape.fair Fair.next (Fair.eps_le (by norm_num)) (Fair.eps_le (by norm_num)) (by norm_num)
example : RandMean Tape.tapeLaw (rt (fin 2)) 0 :=
  C52_rt_mean Tape.fair Fair.next (Fair.eps_le (by norm_num)) (by norm_num)
example : RandNoMean Tape.tapeLaw (rinvgamma (fin (1 / 2)) (fin 3)) :=
  C52_rinvgamma_none_partial Tape.fair Fair.next (by norm_num) (by norm_num) (by norm_num) (Fair.eps_le (by norm_num))
example : RandNoMean Tape.tapeLaw (rf (fin 3) (fin 2)) :=
  C52_rf_none Tape.fair Fair.next (Fair.eps_le (by norm_num)) (Fair.eps_le (by norm_num)) (by norm_num)
example : RandNoMean Tape.tapeLaw (rt (fin 1)) :=
  C52_rt_none Tape.fair Fair.next (Fair.eps_le (by norm_num)) (by norm_num)
example : RandNoMean Tape.tapeLaw (fun s => some (rcauchy (fin 1) (fin 2) s)) :=
  C52_rcauchy_none Tape.fair Fair.next 1 (by norm_num)
example : RandMoments Tape.tapeLaw (fun s => some (runif (fin 0) (fin 1) s)) ((Lib.next 0 1 + 1) / 2)
    ((1 - Lib.next 0 1) ^ 2 / 12) :=
  C52_runif Tape.fair (by rw [Fair.next]; norm_num) (by norm_num)
example : DensNoMean (fun x => df x (fin 3) (fin 2)) := C52_df_none (Fair.eps_le (by norm_num)) (Fair.eps_le (by norm_num)) (by norm_num)
example : DensNoMean (fun x => dt x (fin 1)) := C52_dt_none (Fair.eps_le (by norm_num)) (by norm_num)

end Stats.ExamplesC52

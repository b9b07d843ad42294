import Verif.Lemmas.Params
import Verif.Lemmas.Range
import Verif.Lemmas.Meets

/-! # C11: distribution functions at plus and minus infinity (every rounding, every library) -/

set_option linter.unusedSectionVars false
open Classical
namespace Stats
open Fl Spec
variable [Lib]

/-- The claim: 0 at `-inf`, 1 at `+inf`, in both forms. -/
def EndsOK (F : Fl → Bool → Fl) : Prop :=
  F ninf false = fin 0 ∧ F ninf true = ninf ∧ F pinf false = fin 1 ∧ F pinf true = fin 0

theorem half_add_half : half + half * fin 1 = fin 1 := by
  have : (2⁻¹ + 2⁻¹ : ℝ) = 1 := by norm_num
  simp [fin_mul_fin, fin_add_fin, this]
theorem half_sub_half : half + half * fin (-1) = fin 0 := by
  simp only [half_eq, fin_mul_fin, mul_neg, Lib.rnd_neg, mul_one, rnd_onehalf, ← EReal.coe_neg, ofE_coe,
    fin_add_fin, add_neg_cancel, rnd_zero, ofE_zero]

theorem C11_pnorm (mu sigma : ℝ) (h : 0 ≤ sigma) : EndsOK fun x => pnorm x (fin mu) (fin sigma) := by
  refine ⟨?_, ?_, ?_, ?_⟩ <;>
  by_cases hs : sigma = 0 <;>
  simp_all [pnorm, norm_ok', norm_ok, pnorm_limit_vals]
example : EndsOK fun x => pnorm x (fin 3) (fin 2) := C11_pnorm (mu := 3) (sigma := 2) (h := by meets)

theorem C11_plnorm (mu sigma : ℝ) (h : 0 ≤ sigma) : EndsOK fun x => plnorm x (fin mu) (fin sigma) := by
  obtain ⟨h1, h2, h3, h4⟩ := C11_pnorm mu sigma h
  refine ⟨?_, ?_, ?_, ?_⟩ <;>
  simp_all [plnorm, lnorm_ok', lnorm_ok, eps]
example : EndsOK fun x => plnorm x (fin 3) (fin 2) := C11_plnorm (mu := 3) (sigma := 2) (h := by meets)

theorem C11_punif {a b : ℝ} (h : a < b) : EndsOK fun x => punif x (fin a) (fin b) := by
  refine ⟨?_, ?_, ?_, ?_⟩ <;>
  simp_all [punif, unif_ok', unif_ok, punif_compute]
example : EndsOK fun x => punif x (fin 1) (fin 4) := C11_punif (a := 1) (b := 4) (h := by meets)

/-- Full statement of C11 for the exponential distribution (rate 0 is accepted): it fails for rate 0. -/
theorem C11_pexp_violated : ¬ ∀ rate : ℝ, 0 ≤ rate → EndsOK fun x => pexp x (fin rate) := by
  intro h
  have := (h 0 le_rfl).2.2.1
  simp [pexp, exp_ok', exp_ok, pexp_compute, fin_mul_pinf, expm1] at this

/-- C11 for the exponential distribution with a positive rate. -/
theorem C11_pexp_partial {rate : ℝ} (h : 0 < rate) : EndsOK fun x => pexp x (fin rate) := by
  have h0 : ¬ rate < 0 := by linarith
  have h1 : ¬ rate = 0 := by linarith
  have h2 : (fin (-rate) * pinf : Fl) = ninf := by
    rw [fin_mul_pinf, if_neg (by simpa using h1), if_neg (by linarith)]
  refine ⟨?_, ?_, ?_, ?_⟩ <;>
  simp_all [pexp, exp_ok', exp_ok, pexp_compute, expm1]
example : EndsOK fun x => pexp x (fin 2) := C11_pexp_partial (rate := 2) (h := by meets)

theorem C11_pcauchy (mu sigma : ℝ) (h : 0 ≤ sigma) : EndsOK fun x => pcauchy x (fin mu) (fin sigma) := by
  refine ⟨?_, ?_, ?_, ?_⟩ <;>
  simp_all [pcauchy, cauchy_ok', cauchy_ok, pcauchy_limit_vals]
example : EndsOK fun x => pcauchy x (fin 3) (fin 2) := C11_pcauchy (mu := 3) (sigma := 2) (h := by meets)

theorem C11_plaplace (mu sigma : ℝ) (h : 0 ≤ sigma) : EndsOK fun x => plaplace x (fin mu) (fin sigma) := by
  have h1 := half_add_half
  have h2 := half_sub_half
  rw [half_eq] at h1 h2
  refine ⟨?_, ?_, ?_, ?_⟩ <;>
  by_cases hs : sigma = 0 <;>
  simp_all [plaplace, laplace_ok', laplace_ok, plaplace_limit_vals]
example : EndsOK fun x => plaplace x (fin 3) (fin 2) := C11_plaplace (mu := 3) (sigma := 2) (h := by meets)

theorem C11_plogis (mu sigma : ℝ) (h : 0 ≤ sigma) : EndsOK fun x => plogis x (fin mu) (fin sigma) := by
  refine ⟨?_, ?_, ?_, ?_⟩ <;>
  simp_all [plogis, logis_ok', logis_ok, plogis_limit_vals]
example : EndsOK fun x => plogis x (fin 3) (fin 2) := C11_plogis (mu := 3) (sigma := 2) (h := by meets)

theorem C11_pbeta (a b : ℝ) (ha : 0 ≤ a) (hb : 0 ≤ b) : EndsOK fun x => pbeta x (fin a) (fin b) := by
  refine ⟨?_, ?_, ?_, ?_⟩ <;>
  simp_all [pbeta, beta_ok', beta_ok]
example : EndsOK fun x => pbeta x (fin 1) (fin 4) := C11_pbeta (a := 1) (b := 4) (ha := by meets) (hb := by meets)

theorem C11_pgamma (shape scale : ℝ) (ha : 0 ≤ shape) (hb : Lib.eps ≤ scale) :
    EndsOK fun x => pgamma x (fin shape) (fin scale) := by
  refine ⟨?_, ?_, ?_, ?_⟩ <;>
  simp_all [pgamma, gamma_ok', gamma_ok, eps, pgamma_limit_vals]
example : EndsOK fun x => pgamma x (fin 3) (fin 2) :=
  C11_pgamma (shape := 3) (scale := 2) (ha := by meets) (hb := by meets)

/-- Full statement of C11 for the inverse-gamma distribution: it fails for rates above `1/eps`
(the code evaluates a gamma distribution with scale `1/rate`, which the gamma check rejects). The only
thing needed of the arithmetic is that `eps/2` is representable. -/
theorem C11_pinvgamma_violated (he : Rep (Lib.eps / 2)) :
    ¬ ∀ shape rate : ℝ, 0 ≤ shape → 0 ≤ rate → EndsOK fun x => pinvgamma x (fin shape) (fin rate) := by
  intro h
  have hp := Lib.eps_pos
  have h2 : (2 / Lib.eps) ≠ 0 := by positivity
  have := (h 1 (2 / Lib.eps) (by norm_num) (by positivity)).2.2.1
  have hd : (fin 1 / fin (2 / Lib.eps) : Fl) = fin (Lib.eps / 2) := by
    rw [fin_div_fin, if_neg h2]
    have : 1 / (2 / Lib.eps) = Lib.eps / 2 := by field_simp
    rw [this, he, ofE_coe]
  have h3 : (0 : ℝ) ≤ 2 / Lib.eps := by positivity
  have h4 : Lib.eps / 2 < Lib.eps := by linarith
  simp [pinvgamma, invgamma_ok', invgamma_ok, pinvgamma_limit_vals, pinvgamma_compute, hd, hp.ne', h3,
    pgamma, gamma_ok', gamma_ok, eps, h4] at this

/-- C11 for the inverse-gamma distribution, `rate ≤ 1/eps`. -/
theorem C11_pinvgamma_partial {shape rate : ℝ} (ha : 0 ≤ shape) (hb : 0 ≤ rate) (hr : rate * Lib.eps ≤ 1) :
    EndsOK fun x => pinvgamma x (fin shape) (fin rate) := by
  have hp := Lib.eps_pos
  have key : ∀ s : Fl, AtLeast Lib.eps s → pgamma (fin 0) (fin shape) s false = fin 0 := by
    intro s hs
    have : gamma_ok (fin shape) s := (gamma_ok_iff _ _).2 ⟨by simpa [nonNeg_iff] using ha, hs⟩
    simp [pgamma, gamma_ok', this, eps, hp]
  have hsub : (1 - fin 0 : Fl) = fin 1 := by simp [fin_sub_fin]
  have hs : rate ≠ 0 → AtLeast Lib.eps (1 / fin rate) := by
    intro h0
    rw [one_eq, fin_div_fin, if_neg h0]
    refine ⟨_, ?_, rfl⟩
    rw [← Lib.rnd_eps]
    apply Lib.rnd_mono
    have : 0 < rate := lt_of_le_of_ne hb (Ne.symm h0)
    rw [le_div_iff₀ this]; linarith
  have hpi : AtLeast Lib.eps pinf := ⟨⊤, le_top, by simp⟩
  refine ⟨?_, ?_, ?_, ?_⟩
  · simp [pinvgamma, invgamma_ok', invgamma_ok, ha, hb]
  · simp [pinvgamma, invgamma_ok', invgamma_ok, ha, hb]
  all_goals
    by_cases h0 : rate = 0
    · have hk := key _ hpi
      simp only [one_eq] at hsub hk
      simp [pinvgamma, invgamma_ok', invgamma_ok, ha, pinvgamma_limit_vals, pinvgamma_compute, h0,
        hk, hsub]
    · have hk := key _ (hs h0)
      simp only [one_eq] at hsub hk
      simp [pinvgamma, invgamma_ok', invgamma_ok, ha, hb, pinvgamma_limit_vals, pinvgamma_compute, h0,
        hk, hsub]
example : EndsOK fun x => pinvgamma x (fin 3) (fin 2) :=
  C11_pinvgamma_partial (shape := 3) (rate := 2) (ha := by meets) (hb := by meets) (hr := by meets)

theorem C11_pchisq (dof : ℝ) (h : 0 ≤ dof) : EndsOK fun x => pchisq x (fin dof) := by
  refine ⟨?_, ?_, ?_, ?_⟩ <;>
  simp_all [pchisq, chisq_ok', chisq_ok, eps]
example : EndsOK fun x => pchisq x (fin 4) := C11_pchisq (dof := 4) (h := by meets)

theorem C11_pf (df1 df2 : ℝ) (ha : Lib.eps ≤ df1) (hb : Lib.eps ≤ df2) :
    EndsOK fun x => pf x (fin df1) (fin df2) := by
  refine ⟨?_, ?_, ?_, ?_⟩ <;>
  simp_all [pf, f_ok', f_ok, eps]
example : EndsOK fun x => pf x (fin 3) (fin 5) := C11_pf (df1 := 3) (df2 := 5) (ha := by meets) (hb := by meets)

theorem C11_pt (dof : ℝ) (h : Lib.eps ≤ dof) : EndsOK fun x => pt x (fin dof) := by
  refine ⟨?_, ?_, ?_, ?_⟩ <;>
  simp_all [pt, t_ok', t_ok, eps]
example : EndsOK fun x => pt x (fin 4) := C11_pt (dof := 4) (h := by meets)

theorem C11_pweibull (shape scale : ℝ) (ha : Lib.eps ≤ shape) (hb : Lib.eps ≤ scale) :
    EndsOK fun x => pweibull x (fin shape) (fin scale) := by
  refine ⟨?_, ?_, ?_, ?_⟩ <;>
  simp_all [pweibull, weibull_ok', weibull_ok, eps, pweibull_limit_vals]
example : EndsOK fun x => pweibull x (fin 3) (fin 2) :=
  C11_pweibull (shape := 3) (scale := 2) (ha := by meets) (hb := by meets)

theorem C11_pinvgauss (mu lambda : ℝ) (ha : 0 ≤ mu) (hb : 0 ≤ lambda) :
    EndsOK fun x => pinvgauss x (fin mu) (fin lambda) := by
  refine ⟨?_, ?_, ?_, ?_⟩ <;>
  simp_all [pinvgauss, invgauss_ok', invgauss_ok, pinvgauss_limit_vals]
example : EndsOK fun x => pinvgauss x (fin 3) (fin 2) :=
  C11_pinvgauss (mu := 3) (lambda := 2) (ha := by meets) (hb := by meets)

end Stats

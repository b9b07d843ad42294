import Verif.Model.Prob
import Verif.Lemmas.IdealArith
import Verif.Lemmas.RealCdf2

/-! The distribution functions at finite points in exact arithmetic. -/

set_option linter.unusedSectionVars false
open Classical
namespace Stats
open Fl Spec
variable [Lib] [Ideal]

theorem pnorm_fin (mu : ℝ) {sigma : ℝ} (h : 0 < sigma) (x : ℝ) :
    pnorm (fin x) (fin mu) (fin sigma) false = fin (Phi ((x - mu) / sigma)) := by
  have h0 : ¬ sigma < 0 := by linarith
  have h1 : ¬ sigma = 0 := by linarith
  have h2 : √(2 : ℝ) ≠ 0 := by positivity
  simp only [pnorm, norm_ok', norm_ok, pnorm_compute, ideal, ifin_div _ h1, ifin_div _ h2, Phi]
  simp [h0, h1]

theorem plnorm_fin (mu : ℝ) {sigma : ℝ} (h : 0 < sigma) (x : ℝ) (hx : Lib.eps ≤ x ∨ x ≤ 0) :
    plnorm (fin x) (fin mu) (fin sigma) false = fin (if 0 < x then Phi ((Real.log x - mu) / sigma) else 0) := by
  have h0 : ¬ sigma < 0 := by linarith
  have he := Lib.eps_pos
  rcases hx with hx | hx
  · have hx0 : 0 < x := by linarith
    have h3 : ¬ x < Lib.eps := by linarith
    rw [if_pos hx0]
    simp only [plnorm, lnorm_ok', lnorm_ok, ideal, ilog hx0, pnorm_fin mu h]
    simp [h0, h3, eps]
  · have h3 : x < Lib.eps := by linarith
    simp only [plnorm, lnorm_ok', lnorm_ok, ideal]
    simp [h0, h3, eps, not_lt.2 hx]

theorem punif_fin {a b : ℝ} (h : a < b) (x : ℝ) :
    punif (fin x) (fin a) (fin b) false = fin (unifCdf a b x) := by
  have h1 : b - a ≠ 0 := by linarith
  have h2 : ¬ b ≤ a := by linarith
  simp only [punif, unif_ok', unif_ok, punif_compute, ideal, ifin_div _ h1, unifCdf]
  by_cases h3 : x ≤ a
  · simp [h2, h3]
  · by_cases h4 : b ≤ x <;> simp [h2, h3, h4]

theorem pexp_fin {rate : ℝ} (h : 0 < rate) (x : ℝ) :
    pexp (fin x) (fin rate) false = fin (if 0 < x then 1 - Real.exp (-rate * x) else 0) := by
  have h0 : ¬ rate < 0 := by linarith
  simp only [pexp, exp_ok', exp_ok, pexp_compute, ideal]
  by_cases h3 : x ≤ 0
  · simp [h0, h3, not_lt.2 h3]
  · simp [h0, h3, not_le.1 h3]

theorem pcauchy_fin (mu : ℝ) {sigma : ℝ} (h : 0 < sigma) (x : ℝ) :
    pcauchy (fin x) (fin mu) (fin sigma) false = fin (1 / 2 + Real.arctan ((x - mu) / sigma) / Real.pi) := by
  have h0 : ¬ sigma < 0 := by linarith
  have h1 : ¬ sigma = 0 := by linarith
  simp only [pcauchy, cauchy_ok', cauchy_ok, pcauchy_compute, ideal, ifin_div _ h1,
    ifin_div _ Real.pi_ne_zero]
  simp [h0]

theorem plaplace_fin (mu : ℝ) {sigma : ℝ} (h : 0 < sigma) (x : ℝ) :
    plaplace (fin x) (fin mu) (fin sigma) false = fin (laplaceCdf mu sigma x) := by
  have h0 : ¬ sigma < 0 := by linarith
  have h1 : ¬ sigma = 0 := by linarith
  simp only [plaplace, laplace_ok', laplace_ok, plaplace_compute, ideal, sgn_fin, ifin_div _ h1, laplaceCdf]
  rcases lt_trichotomy x mu with h2 | rfl | h2
  · have h3 : x - mu < 0 := by linarith
    have h4 : ¬ mu < x := by linarith
    simp [h0, h1, h2, h4, ideal, abs_of_neg h3]
    ring_nf
  · simp [h0, h1, ideal]
    norm_num
  · have h3 : 0 < x - mu := by linarith
    have h4 : ¬ x < mu := by linarith
    simp [h0, h1, h2, h4, ideal, abs_of_pos h3]
    ring_nf

theorem plogis_fin (mu : ℝ) {sigma : ℝ} (h : 0 < sigma) (x : ℝ) :
    plogis (fin x) (fin mu) (fin sigma) false = fin (1 / (1 + Real.exp (-((x - mu) / sigma)))) := by
  have h0 : ¬ sigma < 0 := by linarith
  have h1 : ¬ sigma = 0 := by linarith
  have h2 : 2 * sigma ≠ 0 := by positivity
  rw [← logis_form]
  simp only [plogis, logis_ok', logis_ok, plogis_compute, ideal, ifin_div _ h2]
  simp [h0, h1]

theorem pbeta_fin {a b : ℝ} (ha : 0 < a) (hb : 0 < b) (x : ℝ) :
    pbeta (fin x) (fin a) (fin b) false = fin (betaCdf a b x) := by
  have h0 : ¬ a < 0 := by linarith
  have h1 : ¬ b < 0 := by linarith
  have h2 : ¬ a = 0 := by linarith
  have h3 : ¬ b = 0 := by linarith
  simp only [pbeta, beta_ok', beta_ok, ideal, betaCdf]
  by_cases h4 : x ≤ 0
  · simp [h0, h1, h4]
  · by_cases h5 : 1 ≤ x
    · simp [h0, h1, h4, h5]
    · simp [h0, h1, h2, h3, h4, h5, pbeta_compute, iibeta ha hb (not_le.1 h4).le (not_le.1 h5).le]

theorem pgamma_fin {k θ : ℝ} (hk : 0 < k) (hθ : Lib.eps ≤ θ) (x : ℝ) (hx : Lib.eps ≤ x ∨ x ≤ 0) :
    pgamma (fin x) (fin k) (fin θ) false = fin (if 0 < x then gammaP k (x / θ) else 0) := by
  have he := Lib.eps_pos
  have h0 : ¬ k < 0 := by linarith
  have h1 : ¬ θ < Lib.eps := by linarith
  have h2 : ¬ k = 0 := by linarith
  have h3 : θ ≠ 0 := by linarith
  rcases hx with hx | hx
  · have hx0 : 0 < x := by linarith
    have h4 : ¬ x < Lib.eps := by linarith
    have h5 : 0 ≤ x / θ := div_nonneg hx0.le (by linarith)
    simp only [pgamma, gamma_ok', gamma_ok, ideal, pgamma_compute, ifin_div _ h3, iigamma hk h5, if_pos hx0]
    simp [h0, h1, h2, h4, eps]
  · have h4 : x < Lib.eps := by linarith
    simp only [pgamma, gamma_ok', gamma_ok, ideal, if_neg (not_lt.2 hx)]
    simp [h0, h1, h4, eps]

theorem pchisq_fin {k : ℝ} (hk : 0 < k) (x : ℝ) (hx : Lib.eps ≤ x ∨ x ≤ 0) :
    pchisq (fin x) (fin k) false = fin (if 0 < x then gammaP (k / 2) (x / 2) else 0) := by
  have he := Lib.eps_pos
  have h0 : ¬ k < 0 := by linarith
  have h2 : ¬ k = 0 := by linarith
  rcases hx with hx | hx
  · have hx0 : 0 < x := by linarith
    have h4 : ¬ x < Lib.eps := by linarith
    simp only [pchisq, chisq_ok', chisq_ok, ideal, pchisq_compute, iigamma (half_pos hk) (half_pos hx0).le,
      if_pos hx0]
    simp [h0, h2, h4, eps]
  · have h4 : x < Lib.eps := by linarith
    simp only [pchisq, chisq_ok', chisq_ok, ideal, if_neg (not_lt.2 hx)]
    simp [h0, h4, eps]

/-- `pinvgamma` at `x` reads the gamma distribution function at `1/x` with scale `1/rate`; the cut-offs of
`pgamma` apply to those reciprocals. -/
theorem pinvgamma_fin {α β : ℝ} (ha : 0 < α) (hb : 0 < β) (hb' : Lib.eps ≤ 1 / β) (x : ℝ)
    (hx' : Lib.eps ≤ 1 / x ∨ x ≤ 0) :
    pinvgamma (fin x) (fin α) (fin β) false = fin (if 0 < x then 1 - gammaP α (β / x) else 0) := by
  have he := Lib.eps_pos
  have h0 : ¬ α < 0 := by linarith
  have h1 : ¬ β < 0 := by linarith
  have h2 : β ≠ 0 := hb.ne'
  rcases lt_trichotomy x 0 with h3 | rfl | h3
  · simp only [pinvgamma, invgamma_ok', invgamma_ok, ideal, if_neg h3.le.not_gt]
    simp [h0, h1, h3]
  · have h4 : ¬ 1 / β < Lib.eps := by linarith
    rw [if_neg (lt_irrefl _)]
    simp only [pinvgamma, invgamma_ok', invgamma_ok, pinvgamma_limit_vals, pinvgamma_compute, ideal, ifin_div _ h2]
    rw [if_neg (by simp [h0, h1]), if_neg (by simp), if_neg (by simp [h2]), if_neg (by simp), if_pos (by simp)]
    rw [pgamma, if_neg (by simp [gamma_ok', gamma_ok, eps, h0]; simpa using h4), if_neg (by simp), if_neg (by simp [eps]),
      if_pos (by simp), pgamma_limit_vals, if_neg (by simp [ha.ne']), if_pos (by simp)]
    simp [ideal]
  · have hx := h3.ne'
    have h4 : Lib.eps ≤ 1 / x := hx'.resolve_right (not_le.2 h3)
    have h5 : ¬ x < 0 := by linarith
    have h6 := pgamma_fin ha hb' (1 / x) (Or.inl h4)
    rw [if_pos (by positivity)] at h6
    have e : 1 / x / (1 / β) = β / x := by field_simp
    rw [e] at h6
    simp only [pinvgamma, invgamma_ok', invgamma_ok, pinvgamma_limit_vals, pinvgamma_compute, ideal,
      ifin_div _ hx, ifin_div _ h2, if_pos h3]
    rw [if_neg (by simp [h0, h1]), if_neg (by simp [h5]), if_neg (by simp [h2]), if_neg (by simp),
      if_neg (by simp [hx]), if_neg (by simp), h6, ifin_sub]

theorem pf_fin {d₁ d₂ : ℝ} (h1 : Lib.eps ≤ d₁) (h2 : Lib.eps ≤ d₂) (x : ℝ) (hx : Lib.eps ≤ x ∨ x ≤ 0) :
    pf (fin x) (fin d₁) (fin d₂) false = fin (if 0 < x then fCdf d₁ d₂ x else 0) := by
  have he := Lib.eps_pos
  have h1' : 0 < d₁ := by linarith
  have h2' : 0 < d₂ := by linarith
  have h3 : ¬ d₁ < Lib.eps := by linarith
  have h4 : ¬ d₂ < Lib.eps := by linarith
  rcases hx with hx | hx
  · have hx0 : 0 < x := by linarith
    have h5 : ¬ x < Lib.eps := by linarith
    have hw : 0 < d₁ * x / d₂ := by positivity
    have hw1 : 1 + d₁ * x / d₂ ≠ 0 := by positivity
    obtain ⟨h6, h7⟩ := div_one_add_mem hw
    simp only [pf, f_ok', f_ok, ideal, pf_compute, ifin_div _ h2'.ne', ifin_div _ hw1,
      iibeta (half_pos h1') (half_pos h2') h6.le h7.le, if_pos hx0]
    simp [h3, h4, h5, eps, fCdf]
  · have h5 : x < Lib.eps := by linarith
    simp only [pf, f_ok', f_ok, ideal, if_neg (not_lt.2 hx)]
    simp [h3, h4, h5, eps]

theorem pweibull_fin {k θ : ℝ} (hk : Lib.eps ≤ k) (hθ : Lib.eps ≤ θ) (x : ℝ) (hx : Lib.eps ≤ x ∨ x ≤ 0) :
    pweibull (fin x) (fin k) (fin θ) false = fin (if 0 < x then 1 - Real.exp (-(x / θ) ^ k) else 0) := by
  have he := Lib.eps_pos
  have h1' : 0 < k := by linarith
  have h2' : 0 < θ := by linarith
  have h3 : ¬ k < Lib.eps := by linarith
  have h4 : ¬ θ < Lib.eps := by linarith
  rcases hx with hx | hx
  · have hx0 : 0 < x := by linarith
    have h5 : ¬ x < Lib.eps := by linarith
    have h6 : 0 < x / θ := by positivity
    simp only [pweibull, weibull_ok', weibull_ok, ideal, pweibull_compute, ifin_div _ h2'.ne', ipow k h6,
      if_pos hx0]
    simp [h3, h4, h5, eps]
  · have h5 : x < Lib.eps := by linarith
    simp only [pweibull, weibull_ok', weibull_ok, ideal, if_neg (not_lt.2 hx)]
    simp [h3, h4, h5, eps]

theorem pinvgauss_fin {μ l : ℝ} (hm : 0 < μ) (hl : 0 < l) (x : ℝ) :
    pinvgauss (fin x) (fin μ) (fin l) false = fin (if 0 < x then invgaussCdf μ l x else 0) := by
  have h0 : ¬ μ < 0 := by linarith
  have h1 : ¬ l < 0 := by linarith
  rcases lt_trichotomy x 0 with h2 | rfl | h2
  · simp only [pinvgauss, invgauss_ok', invgauss_ok, ideal, if_neg h2.le.not_gt]
    simp [h0, h1, h2]
  · simp only [pinvgauss, invgauss_ok', invgauss_ok, ideal, pinvgauss_limit_vals]
    simp [h0, h1, hm.ne', hl.ne']
  · have h3 : ¬ x < 0 := by linarith
    have h4 : 0 ≤ l / x := by positivity
    have e1 := pnorm_fin 0 one_pos (√(l / x) * (x / μ - 1))
    have e2 := pnorm_fin 0 one_pos (-√(l / x) * (x / μ + 1))
    rw [sub_zero, div_one] at e1 e2
    simp only [pinvgauss, invgauss_ok', invgauss_ok, pinvgauss_compute, pinvgauss_compute_term_1,
      pinvgauss_compute_term_2, pnorm1, ideal, ifin_div _ h2.ne', ifin_div _ hm.ne', isqrt h4, e1, e2,
      if_pos h2, invgaussCdf]
    simp [h0, h1, hm.ne', hl.ne', h2.ne', h3]

/-- the distribution function the code uses for the t distribution -/
noncomputable def tCdfCoded (ν x : ℝ) : ℝ :=
  if ν = 1 then 1 / 2 + Real.arctan x / Real.pi
  else if ν = 2 then 1 / 2 + x / (2 * √(x * x + 2)) else tCdf ν x

theorem isCdf_tCoded {ν : ℝ} (h : 0 < ν) : IsCdf (tCdfCoded ν) (tPdf ν) := by
  unfold tCdfCoded
  by_cases h1 : ν = 1
  · simp only [if_pos h1]; rw [h1]; exact isCdf_t_one
  · by_cases h2 : ν = 2
    · simp only [if_neg h1, if_pos h2]; rw [h2]; exact isCdf_t_two
    · simp only [if_neg h1, if_neg h2]; exact isCdf_t h

theorem tCdfCoded_eq {ν : ℝ} (h : 0 < ν) (x : ℝ) : tCdfCoded ν x = tCdf ν x := by
  rw [← (isCdf_tCoded h).running x, (isCdf_t h).running x]

theorem pt_main_fin {ν : ℝ} (h : 0 < ν) (x : ℝ) : pt_compute_main (fin x) (fin ν) = fin (tCdf ν x) := by
  have hs : 0 < ν + x * x := by nlinarith [mul_self_nonneg x]
  have hb : (0 : ℝ) < 1 / 2 := by norm_num
  have hmem := t_arg_mem (x := x) h
  have e0 : x * x = x ^ 2 := by ring
  have m1 : pt_compute_main_1 (fin (x * x)) (fin ν) = fin (tTail ν x / 2) := by
    simp only [pt_compute_main_1, ideal, ifin_div _ hs.ne', pbeta_fin hb (half_pos h)]
    rw [betaCdf_eq hb (half_pos h)]
    have h1 : x * x / (ν + x * x) = 1 - ν / (ν + x ^ 2) := by rw [e0] at *; field_simp; ring
    rw [h1, min_eq_right (by linarith [hmem.1]), max_eq_right (by linarith [hmem.2]),
      betaI_symm hb (half_pos h) ⟨by linarith [hmem.2], by linarith [hmem.1]⟩, tTail]
    have : 1 - (1 - ν / (ν + x ^ 2)) = ν / (ν + x ^ 2) := by ring
    rw [this]
    congr 1; ring
  have hz : 0 < 1 + x / ν * x := by
    have : x / ν * x = x ^ 2 / ν := by ring
    rw [this]; positivity
  have m2 : pt_compute_main_2 (fin (1 + x / ν * x)) (fin ν) = fin (tTail ν x / 2) := by
    simp only [pt_compute_main_2, ideal, ifin_div _ hz.ne', pbeta_fin (half_pos h) hb]
    rw [betaCdf_eq (half_pos h) hb]
    have h1 : 1 / (1 + x / ν * x) = ν / (ν + x ^ 2) := by
      rw [e0] at hs; field_simp
    rw [h1, min_eq_right hmem.2, max_eq_right hmem.1, tTail]
  simp only [pt_compute_main, ideal, ifin_div _ h.ne', m1, m2, tCdf]
  by_cases h1 : 0 < x <;> simp [h1]

theorem pt_fin {ν : ℝ} (h : Lib.eps ≤ ν) (x : ℝ) : pt (fin x) (fin ν) false = fin (tCdf ν x) := by
  have he := Lib.eps_pos
  have h0 : ¬ ν < Lib.eps := by linarith
  have hp : 0 < ν := by linarith
  have hs : 0 ≤ x * x + 2 := by nlinarith [mul_self_nonneg x]
  have hs2 : 2 * √(x * x + 2) ≠ 0 := by
    have := Real.sqrt_pos.2 (show 0 < x * x + 2 by nlinarith [mul_self_nonneg x])
    positivity
  rw [← tCdfCoded_eq hp, tCdfCoded]
  simp only [pt, t_ok', t_ok, pt_compute, pcauchy_compute, ideal, isqrt hs, ifin_div _ hs2, pt_main_fin hp,
    ifin_div _ Real.pi_ne_zero]
  by_cases h1 : ν = 1
  · subst h1; simp [h0, eps]
  · by_cases h2 : ν = 2
    · subst h2; simp [h0, eps]
    · simp [h0, h1, h2, eps]

end Stats

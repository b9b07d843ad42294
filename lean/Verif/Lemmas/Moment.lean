import Verif.Spec.Moment
import Verif.Lemmas.Law
import Verif.Lemmas.DerivedLaw
import Verif.Lemmas.InvGaussLaw
import Verif.Lemmas.MultiLaw
import Verif.Lemmas.RealDisc
import Mathlib.Probability.Distributions.Gaussian.Real
import Mathlib.MeasureTheory.Integral.Gamma

/-! # Moments of the distributions (real analysis only) -/

set_option linter.unusedSectionVars false
open MeasureTheory Set Filter Topology
open scoped ENNReal

namespace Stats
open Spec

/-- mean and variance of a law -/
structure Moments (D : Measure ℝ) (m v : ℝ) : Prop where
  int1 : Integrable (fun x : ℝ => x) D
  int2 : Integrable (fun x : ℝ => x ^ 2) D
  mean : ∫ x, x ∂D = m
  var : ∫ x, (x - m) ^ 2 ∂D = v

theorem Moments.of_raw {D : Measure ℝ} [IsProbabilityMeasure D] {m v w : ℝ} (h1 : Integrable (fun x : ℝ => x) D)
    (h2 : Integrable (fun x : ℝ => x ^ 2) D) (hm : ∫ x, x ∂D = m) (hw : ∫ x, x ^ 2 ∂D = w) (hv : v = w - m ^ 2) :
    Moments D m v := by
  refine ⟨h1, h2, hm, ?_⟩
  have e : ∀ x : ℝ, (x - m) ^ 2 = x ^ 2 - 2 * m * x + m ^ 2 := fun x => by ring
  simp only [e]
  have i : Integrable (fun x : ℝ => x ^ 2 - 2 * m * x) D := h2.sub (h1.const_mul _)
  rw [integral_add i (integrable_const _), integral_sub h2 (h1.const_mul _), integral_const_mul, hm, hw, hv]
  simp
  ring

theorem Moments.raw {D : Measure ℝ} [IsProbabilityMeasure D] {m v : ℝ} (h : Moments D m v) :
    ∫ x, x ^ 2 ∂D = v + m ^ 2 := by
  have e : ∀ x : ℝ, x ^ 2 = (x - m) ^ 2 + (2 * m * x - m ^ 2) := fun x => by ring
  have i : Integrable (fun x : ℝ => (x - m) ^ 2) D := by
    have := (h.int2.sub (h.int1.const_mul (2 * m))).add (integrable_const (m ^ 2))
    refine this.congr (.of_forall fun x => ?_)
    simp only [Pi.add_apply, Pi.sub_apply]
    ring
  have j : Integrable (fun x : ℝ => 2 * m * x - m ^ 2) D := (h.int1.const_mul _).sub (integrable_const _)
  rw [integral_congr_ae (.of_forall e), integral_add i j, h.var,
    integral_sub (h.int1.const_mul _) (integrable_const _), integral_const_mul, h.mean]
  simp
  ring

theorem Moments.affine {D : Measure ℝ} [IsProbabilityMeasure D] {m v : ℝ} (h : Moments D m v) (a b : ℝ) :
    Moments (D.map fun x => a + b * x) (a + b * m) (b ^ 2 * v) := by
  have hf : AEMeasurable (fun x : ℝ => a + b * x) D := by fun_prop
  have := Measure.isProbabilityMeasure_map (μ := D) hf
  have i1 : Integrable (fun x : ℝ => a + b * x) D := (integrable_const a).add (h.int1.const_mul b)
  have i2 : Integrable (fun x : ℝ => (a + b * x) ^ 2) D := by
    refine (((integrable_const (a ^ 2)).add (h.int1.const_mul (2 * a * b))).add (h.int2.const_mul (b ^ 2))).congr
      (.of_forall fun x => ?_)
    simp only [Pi.add_apply]; ring
  refine ⟨?_, ?_, ?_, ?_⟩
  · exact (integrable_map_measure (g := fun x : ℝ => x) (by fun_prop) hf).2 i1
  · exact (integrable_map_measure (g := fun x : ℝ => x ^ 2) (by fun_prop) hf).2 i2
  · rw [integral_map hf (by fun_prop), integral_add (integrable_const a) (h.int1.const_mul b), integral_const_mul, h.mean]
    simp
  · rw [integral_map hf (by fun_prop)]
    have e : ∀ x : ℝ, (a + b * x - (a + b * m)) ^ 2 = b ^ 2 * (x - m) ^ 2 := fun x => by ring
    simp only [e, integral_const_mul, h.var]

/-! ### laws with a density -/

theorem IsCdf.integral_dens {F f : ℝ → ℝ} (h : IsCdf F f) (g : ℝ → ℝ) : ∫ x, g x ∂densLaw f = ∫ x, g x * f x := by
  rw [densLaw, integral_withDensity_eq_integral_toReal_smul₀ h.integrable.aemeasurable.ennreal_ofReal
    (.of_forall fun x => ENNReal.ofReal_lt_top)]
  refine integral_congr_ae ?_
  filter_upwards [h.nonneg] with x hx
  rw [ENNReal.toReal_ofReal hx, smul_eq_mul, mul_comm]

theorem IsCdf.integrable_dens {F f : ℝ → ℝ} (h : IsCdf F f) (g : ℝ → ℝ) :
    Integrable g (densLaw f) ↔ Integrable fun x => g x * f x := by
  rw [densLaw, integrable_withDensity_iff_integrable_smul₀' h.integrable.aemeasurable.ennreal_ofReal
    (.of_forall fun x => ENNReal.ofReal_lt_top)]
  refine integrable_congr ?_
  filter_upwards [h.nonneg] with x hx
  rw [ENNReal.toReal_ofReal hx, smul_eq_mul, mul_comm]

/-- a power times a density is a multiple of another density of the family -/
theorem pow_dens {F f F' f' : ℝ → ℝ} {r C : ℝ} (h : IsCdf F f) (h' : IsCdf F' f') (e : ∀ x, x ^ r * f x = C * f' x) :
    Integrable (fun x : ℝ => x ^ r) (densLaw f) ∧ ∫ x, x ^ r ∂densLaw f = C := by
  rw [h.integrable_dens, h.integral_dens]
  simp only [e]
  exact ⟨h'.integrable.const_mul C, by rw [integral_const_mul, h'.total, mul_one]⟩

theorem moments_pow {F f : ℝ → ℝ} (h : IsCdf F f) {m w v : ℝ}
    (h1 : Integrable (fun x : ℝ => x ^ (1 : ℝ)) (densLaw f) ∧ ∫ x, x ^ (1 : ℝ) ∂densLaw f = m)
    (h2 : Integrable (fun x : ℝ => x ^ (2 : ℝ)) (densLaw f) ∧ ∫ x, x ^ (2 : ℝ) ∂densLaw f = w) (hv : v = w - m ^ 2) :
    Moments (densLaw f) m v := by
  have := h.isProb
  simp only [Real.rpow_one, Real.rpow_two] at h1 h2
  exact .of_raw h1.1 h2.1 h1.2 h2.2 hv

/-! ### gamma -/

theorem gamma_pow {k θ r : ℝ} (hk : 0 < k) (hθ : 0 < θ) (hr : 0 < k + r) :
    Integrable (fun x : ℝ => x ^ r) (densLaw (gammaPdf k θ)) ∧
      ∫ x, x ^ r ∂densLaw (gammaPdf k θ) = θ ^ r * Real.Gamma (k + r) / Real.Gamma k := by
  refine pow_dens (isCdf_gamma hk hθ) (isCdf_gamma hr hθ) fun x => ?_
  rw [gammaPdf, gammaPdf]
  split_ifs with hx
  · have h1 := Real.Gamma_pos_of_pos hk
    have h2 := Real.Gamma_pos_of_pos hr
    have h3 := Real.rpow_pos_of_pos hθ k
    have h4 := Real.rpow_pos_of_pos hθ r
    rw [show k + r - 1 = r + (k - 1) by ring, Real.rpow_add hx, Real.rpow_add hθ]
    field_simp
  · rw [mul_zero, mul_zero]

theorem Gamma_add_two {k : ℝ} (hk : 0 < k) : Real.Gamma (k + 2) = (k + 1) * (k * Real.Gamma k) := by
  rw [show k + 2 = k + 1 + 1 by ring, Real.Gamma_add_one (by linarith), Real.Gamma_add_one hk.ne']

theorem moments_gamma {k θ : ℝ} (hk : 0 < k) (hθ : 0 < θ) : Moments (densLaw (gammaPdf k θ)) (k * θ) (k * θ ^ 2) := by
  have h1 := gamma_pow (r := 1) hk hθ (by linarith)
  have h2 := gamma_pow (r := 2) hk hθ (by linarith)
  have hG := (Real.Gamma_pos_of_pos hk).ne'
  rw [Real.Gamma_add_one hk.ne'] at h1
  rw [Gamma_add_two hk] at h2
  rw [Real.rpow_one θ] at h1
  rw [Real.rpow_two θ] at h2
  refine moments_pow (isCdf_gamma hk hθ) ⟨h1.1, h1.2.trans (by field_simp)⟩ h2 ?_
  field_simp
  ring

theorem expPdf_gamma {rate : ℝ} (h : 0 < rate) : expPdf rate =ᵐ[volume] gammaPdf 1 (1 / rate) := by
  have : ∀ᵐ x : ℝ, x ≠ 0 := by simp [ae_iff]
  filter_upwards [this] with x hx
  rw [expPdf, gammaPdf]
  rcases lt_or_gt_of_ne hx with h' | h'
  · rw [if_neg (by linarith), if_neg (by linarith)]
  · rw [if_pos h'.le, if_pos h', sub_self, Real.rpow_zero, Real.rpow_one, Real.Gamma_one,
      show -x / (1 / rate) = -rate * x by field_simp]
    field_simp

theorem moments_exp {rate : ℝ} (h : 0 < rate) : Moments (densLaw (expPdf rate)) (1 / rate) (1 / rate ^ 2) := by
  rw [densLaw_congr (expPdf_gamma h)]
  have := moments_gamma (k := 1) one_pos (one_div_pos.2 h)
  rwa [one_mul, one_mul, one_div_pow] at this

theorem moments_chisq {k : ℝ} (h : 0 < k) : Moments (densLaw (chisqPdf k)) k (2 * k) := by
  rw [chisqPdf_fun]
  have := moments_gamma (half_pos h) two_pos
  rwa [show k / 2 * 2 = k by ring, show k / 2 * 2 ^ 2 = 2 * k by ring] at this

/-! ### inverse gamma -/

theorem invgamma_pow {α β r : ℝ} (ha : 0 < α) (hb : 0 < β) (hr : 0 < α - r) :
    Integrable (fun x : ℝ => x ^ r) (densLaw (invgammaPdf α β)) ∧
      ∫ x, x ^ r ∂densLaw (invgammaPdf α β) = β ^ r * Real.Gamma (α - r) / Real.Gamma α := by
  refine pow_dens (isCdf_invgamma ha hb) (isCdf_invgamma hr hb) fun x => ?_
  rw [invgammaPdf, invgammaPdf]
  split_ifs with hx
  · have h1 := Real.Gamma_pos_of_pos ha
    have h2 := Real.Gamma_pos_of_pos hr
    have h3 := Real.rpow_pos_of_pos hb α
    have h4 := Real.rpow_pos_of_pos hb r
    rw [show -(α - r) - 1 = r + (-α - 1) by ring, Real.rpow_add hx, Real.rpow_sub hb]
    field_simp
  · rw [mul_zero, mul_zero]

theorem mean_invgamma {α β : ℝ} (ha : 1 < α) (hb : 0 < β) :
    Integrable (fun x : ℝ => x) (densLaw (invgammaPdf α β)) ∧ ∫ x, x ∂densLaw (invgammaPdf α β) = β / (α - 1) := by
  have h := invgamma_pow (r := 1) (by linarith : 0 < α) hb (by linarith)
  simp only [Real.rpow_one] at h
  refine ⟨h.1, h.2.trans ?_⟩
  have hG := (Real.Gamma_pos_of_pos (show 0 < α - 1 by linarith)).ne'
  have h1 : α - 1 ≠ 0 := by linarith
  have e := Real.Gamma_add_one h1
  rw [sub_add_cancel] at e
  rw [e]
  field_simp

theorem moments_invgamma {α β : ℝ} (ha : 2 < α) (hb : 0 < β) :
    Moments (densLaw (invgammaPdf α β)) (β / (α - 1)) (β ^ 2 / ((α - 1) ^ 2 * (α - 2))) := by
  have h0 : 0 < α := by linarith
  have := (isCdf_invgamma h0 hb).isProb
  have h1 := mean_invgamma (by linarith : 1 < α) hb
  have h2 := invgamma_pow (r := 2) h0 hb (by linarith)
  simp only [Real.rpow_two] at h2
  refine .of_raw h1.1 h2.1 h1.2 h2.2 ?_
  have hG := (Real.Gamma_pos_of_pos (show 0 < α - 2 by linarith)).ne'
  have g1 : α - 1 ≠ 0 := by linarith
  have g2 : α - 2 ≠ 0 := by linarith
  have e := Gamma_add_two (show 0 < α - 2 by linarith)
  rw [sub_add_cancel, show α - 2 + 1 = α - 1 by ring] at e
  rw [e]
  field_simp
  ring

/-! ### beta -/

theorem beta_pow {a b r : ℝ} (ha : 0 < a) (hb : 0 < b) (hr : 0 < a + r) :
    Integrable (fun x : ℝ => x ^ r) (densLaw (betaPdf a b)) ∧
      ∫ x, x ^ r ∂densLaw (betaPdf a b) = beta (a + r) b / beta a b := by
  refine pow_dens (isCdf_beta ha hb) (isCdf_beta hr hb) fun x => ?_
  rw [betaPdf, betaPdf]
  split_ifs with hx
  · have h1 := beta_pos ha hb
    have h2 := beta_pos hr hb
    rw [show a + r - 1 = r + (a - 1) by ring, Real.rpow_add hx.1]
    field_simp
  · rw [mul_zero, mul_zero]

theorem moments_beta {a b : ℝ} (ha : 0 < a) (hb : 0 < b) :
    Moments (densLaw (betaPdf a b)) (a / (a + b)) (a * b / ((a + b) ^ 2 * (a + b + 1))) := by
  have h1 := beta_pow (r := 1) ha hb (by linarith)
  have h2 := beta_pow (r := 2) ha hb (by linarith)
  have hab : 0 < a + b := by linarith
  have g1 := (Real.Gamma_pos_of_pos ha).ne'
  have g2 := (Real.Gamma_pos_of_pos hb).ne'
  have g3 := (Real.Gamma_pos_of_pos hab).ne'
  have e1 : beta (a + 1) b / beta a b = a / (a + b) := by
    rw [beta, beta, show a + 1 + b = a + b + 1 by ring, Real.Gamma_add_one ha.ne', Real.Gamma_add_one hab.ne']
    field_simp
  have e2 : beta (a + 2) b / beta a b = a * (a + 1) / ((a + b) * (a + b + 1)) := by
    rw [beta, beta, show a + 2 + b = a + b + 2 by ring, Gamma_add_two ha, Gamma_add_two hab]
    field_simp
  rw [e1] at h1
  rw [e2] at h2
  refine moments_pow (isCdf_beta ha hb) h1 h2 ?_
  field_simp
  ring

/-! ### Weibull -/

theorem weibull_pow {k θ r : ℝ} (hk : 0 < k) (hθ : 0 < θ) (hr : 0 < k + r) :
    Integrable (fun x : ℝ => x ^ r) (densLaw (weibullPdf k θ)) ∧
      ∫ x, x ^ r ∂densLaw (weibullPdf k θ) = θ ^ r * Real.Gamma (1 + r / k) := by
  have hw := isCdf_weibull hk hθ
  rw [hw.integrable_dens, hw.integral_dens]
  have hb : 0 < (1 / θ) ^ k := Real.rpow_pos_of_pos (by positivity) _
  have e : (fun x : ℝ => x ^ r * weibullPdf k θ x) =
      indicator (Ioi 0) fun x => k * (1 / θ) ^ k * (x ^ (r + k - 1) * Real.exp (-(1 / θ) ^ k * x ^ k)) := by
    funext x
    by_cases hx : 0 < x
    · rw [indicator_of_mem (show x ∈ Ioi 0 from hx), weibullPdf, if_pos hx, div_eq_mul_one_div x,
        Real.mul_rpow hx.le (by positivity), Real.mul_rpow hx.le (by positivity), show r + k - 1 = r + (k - 1) by ring,
        Real.rpow_add hx, show (1 / θ) ^ k = (1 / θ) ^ (k - 1) * (1 / θ) by
          rw [← Real.rpow_add_one (by positivity), sub_add_cancel]]
      rw [show x ^ k * ((1 / θ) ^ (k - 1) * (1 / θ)) = (1 / θ) ^ (k - 1) * (1 / θ) * x ^ k by ring, neg_mul]
      ring
    · rw [indicator_of_notMem (show x ∉ Ioi 0 from hx), weibullPdf, if_neg hx, mul_zero]
  rw [e]
  constructor
  · rw [integrable_indicator_iff measurableSet_Ioi]
    exact (integrableOn_rpow_mul_exp_neg_mul_rpow (by linarith) hk hb).const_mul _
  · rw [integral_indicator measurableSet_Ioi, integral_const_mul,
      integral_rpow_mul_exp_neg_mul_rpow hk (by linarith) hb]
    have e2 : -(r + k - 1 + 1) / k = -(1 + r / k) := by field_simp; ring
    have e3 : (r + k - 1 + 1) / k = 1 + r / k := by field_simp; ring
    rw [e2, e3, ← Real.rpow_mul (by positivity), show k * -(1 + r / k) = -r - k by field_simp; ring,
      Real.rpow_sub (by positivity), Real.rpow_neg (by positivity), one_div, Real.inv_rpow hθ.le, Real.inv_rpow hθ.le]
    have h3 := Real.rpow_pos_of_pos hθ k
    have h4 := Real.rpow_pos_of_pos hθ r
    field_simp

theorem moments_weibull {k θ : ℝ} (hk : 0 < k) (hθ : 0 < θ) :
    Moments (densLaw (weibullPdf k θ)) (θ * Real.Gamma (1 + 1 / k))
      (θ ^ 2 * (Real.Gamma (1 + 2 / k) - Real.Gamma (1 + 1 / k) ^ 2)) := by
  have h1 := weibull_pow (r := 1) hk hθ (by linarith)
  have h2 := weibull_pow (r := 2) hk hθ (by linarith)
  rw [Real.rpow_one θ] at h1
  rw [Real.rpow_two θ] at h2
  exact moments_pow (isCdf_weibull hk hθ) h1 h2 (by ring)

/-! ### normal and log-normal -/

theorem moments_norm01 : Moments (densLaw (normPdf 0 1)) 0 1 := by
  rw [densLaw_norm01]
  have h1 := ProbabilityTheory.memLp_id_gaussianReal (μ := 0) (v := 1) 1
  have h2 := ProbabilityTheory.memLp_id_gaussianReal (μ := 0) (v := 1) 2
  have i1 : ∫ z, z ∂ProbabilityTheory.gaussianReal 0 1 = 0 := ProbabilityTheory.integral_id_gaussianReal
  refine ⟨memLp_one_iff_integrable.1 h1, h2.integrable_sq, i1, ?_⟩
  have := ProbabilityTheory.variance_id_gaussianReal (μ := 0) (v := 1)
  rw [ProbabilityTheory.variance_eq_integral aemeasurable_id] at this
  simpa [i1] using this

theorem moments_norm (mu : ℝ) {sigma : ℝ} (h : 0 < sigma) : Moments (densLaw (normPdf mu sigma)) mu (sigma ^ 2) := by
  have := (isCdf_norm 0 one_pos).isProb
  have h1 := moments_norm01.affine mu sigma
  rw [norm_affine mu h] at h1
  simpa using h1

theorem integral_exp_norm01 (t : ℝ) : Integrable (fun z : ℝ => Real.exp (t * z)) (densLaw (normPdf 0 1)) ∧
    ∫ z, Real.exp (t * z) ∂densLaw (normPdf 0 1) = Real.exp (t ^ 2 / 2) := by
  rw [densLaw_norm01]
  refine ⟨ProbabilityTheory.integrable_exp_mul_gaussianReal t, ?_⟩
  have := ProbabilityTheory.mgf_gaussianReal (p := ProbabilityTheory.gaussianReal 0 1) (X := fun x => x) (μ := 0) (v := 1)
    (Measure.map_id) t
  rw [ProbabilityTheory.mgf] at this
  rw [this]
  simp

theorem moments_lnorm (mu : ℝ) {sigma : ℝ} (h : 0 < sigma) :
    Moments (densLaw (lnormPdf mu sigma)) (Real.exp (mu + sigma ^ 2 / 2))
      ((Real.exp (sigma ^ 2) - 1) * Real.exp (2 * mu + sigma ^ 2)) := by
  have := (isCdf_norm 0 one_pos).isProb
  have hp := (isCdf_lnorm mu h).isProb
  rw [← lnorm_exp mu h, ← norm_affine mu h, Measure.map_map (by fun_prop) (by fun_prop)] at hp ⊢
  have hf : AEMeasurable (Real.exp ∘ fun z : ℝ => mu + sigma * z) (densLaw (normPdf 0 1)) := by fun_prop
  have e1 : ∀ z, Real.exp (mu + sigma * z) = Real.exp mu * Real.exp (sigma * z) := fun z => Real.exp_add _ _
  have e2 : ∀ z, Real.exp (mu + sigma * z) ^ 2 = Real.exp (2 * mu) * Real.exp (2 * sigma * z) := fun z => by
    rw [← Real.exp_nat_mul, ← Real.exp_add]; congr 1; push_cast; ring
  have i1 := integral_exp_norm01 sigma
  have i2 := integral_exp_norm01 (2 * sigma)
  refine .of_raw (w := Real.exp (2 * mu) * Real.exp ((2 * sigma) ^ 2 / 2)) ?_ ?_ ?_ ?_ ?_
  · refine (integrable_map_measure (g := fun x : ℝ => x) (by fun_prop) hf).2 ?_
    simpa only [Function.comp_def, e1] using i1.1.const_mul _
  · refine (integrable_map_measure (g := fun x : ℝ => x ^ 2) (by fun_prop) hf).2 ?_
    simpa only [Function.comp_def, e2] using i2.1.const_mul _
  · rw [integral_map hf (by fun_prop)]
    simp only [Function.comp_def, e1, integral_const_mul, i1.2]
    rw [← Real.exp_add]
  · rw [integral_map hf (by fun_prop)]
    simp only [Function.comp_def, e2, integral_const_mul, i2.2]
  · rw [← Real.exp_add, ← Real.exp_nat_mul, sub_mul, ← Real.exp_add, one_mul]
    congr 2 <;> (push_cast; ring)

/-! ### uniform -/

theorem moments_unif {a b : ℝ} (h : a < b) :
    Moments (densLaw (unifPdf a b)) ((a + b) / 2) ((b - a) ^ 2 / 12) := by
  have hu := isCdf_unif h
  have := hu.isProb
  have e : ∀ g : ℝ → ℝ, (fun x => g x * unifPdf a b x) = indicator (Icc a b) fun x => g x * (1 / (b - a)) := fun g => by
    funext x
    by_cases hx : x ∈ Icc a b
    · rw [indicator_of_mem hx, unifPdf, if_pos (And.intro hx.1 hx.2)]
    · rw [indicator_of_notMem hx, unifPdf, if_neg (fun hc => hx ⟨hc.1, hc.2⟩), mul_zero]
  have i : ∀ g : ℝ → ℝ, Continuous g → Integrable g (densLaw (unifPdf a b)) := fun g hg => by
    rw [hu.integrable_dens, e, integrable_indicator_iff measurableSet_Icc]
    exact (hg.mul continuous_const).continuousOn.integrableOn_Icc
  have j : ∀ g : ℝ → ℝ, ∫ x, g x ∂densLaw (unifPdf a b) = (∫ x in a..b, g x) * (1 / (b - a)) := fun g => by
    rw [hu.integral_dens, e, integral_indicator measurableSet_Icc, integral_mul_const, integral_Icc_eq_integral_Ioc,
      intervalIntegral.integral_of_le h.le]
  have hb : b - a ≠ 0 := by linarith
  refine .of_raw (w := (b ^ 3 - a ^ 3) / 3 * (1 / (b - a))) (i _ continuous_id) (i _ (by fun_prop)) ?_ ?_ ?_
  · rw [j, integral_id]; field_simp; ring
  · rw [j, integral_pow]; norm_num
  · field_simp; ring

end Stats

import Verif.Lemmas.Combine
import Mathlib.Analysis.Fourier.Inversion
import Mathlib.Analysis.SpecialFunctions.ImproperIntegrals
import Mathlib.MeasureTheory.Measure.CharacteristicFunction.Basic

/-! Sums of independent Cauchy numbers, by the Fourier transform of the Laplace density. -/

open MeasureTheory Set
open scoped FourierTransform

namespace Stats
open Spec

/-- the function whose Fourier transform is the Cauchy density -/
noncomputable def peak (x : ℝ) : ℂ := Complex.exp (-(2 * Real.pi * |x| : ℝ))

theorem continuous_peak : Continuous peak := by unfold peak; fun_prop

theorem peak_half (ξ : ℝ) :
    (∫ x in Ioi (0 : ℝ), Complex.exp (↑(-2 * Real.pi * x * ξ) * Complex.I) * peak x) = 1 / (2 * Real.pi * (1 + ξ * Complex.I)) ∧
    IntegrableOn (fun x => Complex.exp (↑(-2 * Real.pi * x * ξ) * Complex.I) * peak x) (Ioi 0) := by
  have hr : (-(2 * Real.pi * (1 + ξ * Complex.I)) : ℂ).re < 0 := by simp [Real.pi_pos]
  have e : EqOn (fun x : ℝ => Complex.exp (↑(-2 * Real.pi * x * ξ) * Complex.I) * peak x)
      (fun x : ℝ => Complex.exp (-(2 * Real.pi * (1 + ξ * Complex.I)) * x)) (Ioi 0) := fun x hx => by
    simp only [peak]
    rw [abs_of_pos hx, ← Complex.exp_add]
    congr 1; push_cast; ring
  refine ⟨?_, (integrableOn_exp_mul_complex_Ioi hr 0).congr_fun e.symm measurableSet_Ioi⟩
  rw [setIntegral_congr_fun measurableSet_Ioi e, integral_exp_mul_complex_Ioi hr]
  simp [neg_div_neg_eq]

theorem peak_half' (ξ : ℝ) :
    (∫ x in Iic (0 : ℝ), Complex.exp (↑(-2 * Real.pi * x * ξ) * Complex.I) * peak x) = 1 / (2 * Real.pi * (1 - ξ * Complex.I)) ∧
    IntegrableOn (fun x => Complex.exp (↑(-2 * Real.pi * x * ξ) * Complex.I) * peak x) (Iic 0) := by
  have hr : 0 < (2 * Real.pi * (1 - ξ * Complex.I) : ℂ).re := by simp [Real.pi_pos]
  have e : EqOn (fun x : ℝ => Complex.exp (↑(-2 * Real.pi * x * ξ) * Complex.I) * peak x)
      (fun x : ℝ => Complex.exp ((2 * Real.pi * (1 - ξ * Complex.I)) * x)) (Iic 0) := fun x hx => by
    simp only [peak]
    rw [abs_of_nonpos hx, ← Complex.exp_add]
    congr 1; push_cast; ring
  refine ⟨?_, (integrableOn_exp_mul_complex_Iic hr 0).congr_fun e.symm measurableSet_Iic⟩
  rw [setIntegral_congr_fun measurableSet_Iic e, integral_exp_mul_complex_Iic hr]
  simp

theorem integrable_peak : Integrable peak := by
  have h1 := (peak_half 0).2
  have h2 := (peak_half' 0).2
  simp only [mul_zero, Complex.ofReal_zero, zero_mul, Complex.exp_zero, one_mul] at h1 h2
  have := h2.union h1
  rwa [Iic_union_Ioi, integrableOn_univ] at this

theorem fourier_peak : 𝓕 peak = fun ξ => ((cauchyPdf 0 1 ξ : ℝ) : ℂ) := by
  funext ξ
  rw [Real.fourier_real_eq_integral_exp_smul]
  simp only [smul_eq_mul]
  have hi : Integrable fun x : ℝ => Complex.exp (↑(-2 * Real.pi * x * ξ) * Complex.I) * peak x := by
    have := (peak_half' ξ).2.union (peak_half ξ).2
    rwa [Iic_union_Ioi, integrableOn_univ] at this
  rw [← integral_add_compl (measurableSet_Iic (a := (0 : ℝ))) hi, compl_Iic, (peak_half ξ).1, (peak_half' ξ).1, cauchyPdf]
  have h1 : (1 + ξ * Complex.I : ℂ) ≠ 0 := fun h => by simpa using congrArg Complex.re h
  have h2 : (1 - ξ * Complex.I : ℂ) ≠ 0 := fun h => by simpa using congrArg Complex.re h
  have hp : (Real.pi : ℂ) ≠ 0 := Complex.ofReal_ne_zero.2 Real.pi_ne_zero
  have h3 : (1 + ξ ^ 2 : ℂ) = (1 + ξ * Complex.I) * (1 - ξ * Complex.I) := by ring_nf; simp
  push_cast
  rw [sub_zero, div_one, mul_one, h3]
  field_simp
  ring

theorem cauchy_std (x : ℝ) : cauchyPdf 0 1 x = 1 / Real.pi * (1 + x ^ 2)⁻¹ := by
  rw [cauchyPdf, sub_zero, div_one, mul_one, one_div, mul_inv, one_div]

theorem charFun_cauchy_std (t : ℝ) : charFun (densLaw (cauchyPdf 0 1)) t = Complex.exp (-(|t| : ℝ)) := by
  have hi : Integrable (𝓕 peak) := by
    rw [fourier_peak]
    have : Integrable (cauchyPdf 0 1) := by
      rw [show cauchyPdf 0 1 = fun x => 1 / Real.pi * (1 + x ^ 2)⁻¹ from funext cauchy_std]
      exact integrable_inv_one_add_sq.const_mul _
    exact this.ofReal
  have h := congrFun (continuous_peak.fourierInv_fourier_eq integrable_peak hi) (t / (2 * Real.pi))
  rw [Real.fourierInv_eq', fourier_peak] at h
  have hm : Measurable (cauchyPdf 0 1) := by unfold cauchyPdf; fun_prop
  rw [charFun_apply_real, densLaw, integral_withDensity_eq_integral_toReal_smul hm.ennreal_ofReal (.of_forall fun _ => ENNReal.ofReal_lt_top)]
  have hpi := Real.pi_pos
  rw [peak, abs_div, abs_of_pos (show 0 < 2 * Real.pi by positivity), mul_div_cancel₀ _ (by positivity)] at h
  rw [← h]
  refine integral_congr_ae (.of_forall fun x => ?_)
  have : 0 ≤ cauchyPdf 0 1 x := by rw [cauchy_std]; positivity
  simp only
  rw [ENNReal.toReal_ofReal this, Complex.real_smul, smul_eq_mul, mul_comm]
  congr 2
  simp only [RCLike.inner_apply, conj_trivial]
  rw [show 2 * Real.pi * (t / (2 * Real.pi) * x) = t * x by field_simp]
  push_cast
  ring

theorem cauchy_affine (m : ℝ) {s : ℝ} (h : 0 < s) :
    (densLaw (cauchyPdf 0 1)).map (fun z => m + s * z) = densLaw (cauchyPdf m s) := by
  rw [densLaw_map (ψ := fun w => (w - m) / s) (ψ' := fun _ => 1 / s) (s := univ) MeasurableSet.univ (by fun_prop)]
  · congr 1; funext w
    rw [indicator_of_mem (mem_univ w), abs_of_pos (by positivity), cauchyPdf, cauchyPdf, sub_zero, div_one, mul_one]
    field_simp
  · intro w _
    exact (((hasDerivAt_id w).sub_const m).div_const s).hasDerivWithinAt
  · intro w _; field_simp; ring
  · exact fun x hx => absurd ⟨m + s * x, mem_univ _, by field_simp; ring⟩ hx

theorem charFun_cauchy (m : ℝ) {s : ℝ} (h : 0 < s) (t : ℝ) :
    charFun (densLaw (cauchyPdf m s)) t = Complex.exp (t * m * Complex.I - (s * |t| : ℝ)) := by
  have := (isCdf_cauchy 0 one_pos).isProb
  rw [← cauchy_affine m h, show (fun z => m + s * z) = (fun z => m + z) ∘ fun z => s * z from rfl,
    ← Measure.map_map (by fun_prop) (by fun_prop), charFun_map_const_add, charFun_map_mul, charFun_cauchy_std, ← Complex.exp_add,
    abs_mul, abs_of_pos h]
  congr 1
  simp
  ring

theorem cauchy_add (m₁ m₂ : ℝ) {s₁ s₂ : ℝ} (h₁ : 0 < s₁) (h₂ : 0 < s₂) :
    ((densLaw (cauchyPdf m₁ s₁)).prod (densLaw (cauchyPdf m₂ s₂))).map (fun p => p.1 + p.2) =
      densLaw (cauchyPdf (m₁ + m₂) (s₁ + s₂)) := by
  have := (isCdf_cauchy m₁ h₁).isProb
  have := (isCdf_cauchy m₂ h₂).isProb
  have := (isCdf_cauchy (m₁ + m₂) (add_pos h₁ h₂)).isProb
  change Measure.conv (densLaw (cauchyPdf m₁ s₁)) (densLaw (cauchyPdf m₂ s₂)) = _
  refine Measure.ext_of_charFun (funext fun t => ?_)
  rw [charFun_conv, charFun_cauchy m₁ h₁, charFun_cauchy m₂ h₂, charFun_cauchy _ (add_pos h₁ h₂), ← Complex.exp_add]
  congr 1
  push_cast
  ring

end Stats

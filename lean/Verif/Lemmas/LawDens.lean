import Verif.Lemmas.Law
import Mathlib.MeasureTheory.Function.Jacobian
import Mathlib.MeasureTheory.Measure.Haar.OfBasis
import Mathlib.MeasureTheory.Measure.Prod
import Mathlib.Analysis.SpecialFunctions.Gamma.Basic

/-! Images of laws with densities. -/

open MeasureTheory Set
open scoped ENNReal

namespace Stats
open Spec

theorem densLaw_apply (f : ℝ → ℝ) {B : Set ℝ} (hB : MeasurableSet B) :
    densLaw f B = ∫⁻ x in B, ENNReal.ofReal (f x) := withDensity_apply _ hB

/-- Change of variables: `ψ` maps `s` one to one onto the support of `f`, and `h` is its inverse there. -/
theorem densLaw_map {f h ψ ψ' : ℝ → ℝ} {s : Set ℝ} (hs : MeasurableSet s) (hh : Measurable h)
    (hd : ∀ w ∈ s, HasDerivWithinAt ψ (ψ' w) s w) (hi : ∀ w ∈ s, h (ψ w) = w) (hf : ∀ x, x ∉ ψ '' s → f x = 0) :
    (densLaw f).map h = densLaw (s.indicator fun w => |ψ' w| * f (ψ w)) := by
  have inj : InjOn ψ s := fun a ha b hb e => by rw [← hi a ha, ← hi b hb, e]
  have him : MeasurableSet (ψ '' s) := measurable_image_of_fderivWithin hs
    (fun w hw => (hd w hw).hasFDerivWithinAt) inj
  refine Measure.ext fun B hB => ?_
  rw [Measure.map_apply hh hB, densLaw_apply _ (hh hB), densLaw_apply _ hB]
  have e1 : ∫⁻ x in h ⁻¹' B, ENNReal.ofReal (f x) =
      ∫⁻ x in ψ '' s, (h ⁻¹' B).indicator (fun x => ENNReal.ofReal (f x)) x := by
    rw [← lintegral_indicator (hh hB), ← lintegral_indicator him]
    congr 1; funext x
    by_cases hx : x ∈ ψ '' s
    · rw [indicator_of_mem hx]
    · rw [indicator_of_notMem hx, indicator]; split_ifs
      · rw [hf x hx, ENNReal.ofReal_zero]
      · rfl
  have e2 : ∫⁻ w in B, ENNReal.ofReal (s.indicator (fun w => |ψ' w| * f (ψ w)) w) =
      ∫⁻ w in s, ENNReal.ofReal |ψ' w| * (h ⁻¹' B).indicator (fun x => ENNReal.ofReal (f x)) (ψ w) := by
    rw [← lintegral_indicator hB, ← lintegral_indicator hs]
    congr 1; funext w
    by_cases hw : w ∈ s
    · have hiff : ψ w ∈ h ⁻¹' B ↔ w ∈ B := by rw [mem_preimage, hi w hw]
      rw [indicator_of_mem hw]
      by_cases hwB : w ∈ B
      · rw [indicator_of_mem hwB, indicator_of_mem hw, indicator_of_mem (hiff.2 hwB), ENNReal.ofReal_mul (abs_nonneg _)]
      · rw [indicator_of_notMem hwB, indicator_of_notMem (fun c => hwB (hiff.1 c)), mul_zero]
    · rw [indicator_of_notMem hw, indicator]; split_ifs
      · rw [indicator_of_notMem hw, ENNReal.ofReal_zero]
      · rfl
  rw [e1, e2]
  exact lintegral_image_eq_lintegral_abs_deriv_mul hs hd inj _

/-- Mixture: if `h x y` has density `k · y` for fixed `y`, then `h X Y` has the density `∫ k w y g(y) dy`. -/
theorem densLaw_mix {D : Measure ℝ} [SFinite D] {g : ℝ → ℝ} {h : ℝ → ℝ → ℝ} {k : ℝ → ℝ → ℝ}
    (hg : Measurable g) (hh : Measurable fun p : ℝ × ℝ => h p.1 p.2) (hk : Measurable fun p : ℝ × ℝ => k p.1 p.2)
    (hl : ∀ y, g y ≠ 0 → D.map (fun x => h x y) = densLaw fun w => k w y) {f : ℝ → ℝ}
    (hf : ∀ᵐ w, ∫⁻ y, ENNReal.ofReal (k w y) * ENNReal.ofReal (g y) = ENNReal.ofReal (f w)) :
    (D.prod (densLaw g)).map (fun p => h p.1 p.2) = densLaw f := by
  refine Measure.ext fun B hB => ?_
  have hg' : Measurable fun y => ENNReal.ofReal (g y) := hg.ennreal_ofReal
  have hk' : Measurable fun p : ℝ × ℝ => ENNReal.ofReal (k p.1 p.2) := hk.ennreal_ofReal
  rw [Measure.map_apply hh hB, Measure.prod_apply_symm (hh hB), densLaw_apply _ hB, densLaw]
  rw [lintegral_withDensity_eq_lintegral_mul _ hg' (measurable_measure_prodMk_right (hh hB))]
  have e : ∀ y, ((fun y => ENNReal.ofReal (g y)) * fun y => D ((fun x => (x, y)) ⁻¹' ((fun p : ℝ × ℝ => h p.1 p.2) ⁻¹' B))) y =
      ∫⁻ w in B, ENNReal.ofReal (k w y) * ENNReal.ofReal (g y) := by
    intro y
    simp only [Pi.mul_apply]
    by_cases hy : g y = 0
    · simp [hy]
    · have hhy : Measurable fun x => h x y := hh.comp (measurable_id.prodMk measurable_const)
      have : D ((fun x => (x, y)) ⁻¹' ((fun p : ℝ × ℝ => h p.1 p.2) ⁻¹' B)) = (D.map fun x => h x y) B := by
        rw [Measure.map_apply hhy hB]; rfl
      have hky : Measurable fun w => ENNReal.ofReal (k w y) := hk'.comp (measurable_id.prodMk measurable_const)
      rw [this, hl y hy, densLaw_apply _ hB, lintegral_mul_const _ hky, mul_comm]
  simp_rw [e]
  rw [lintegral_lintegral_swap]
  · exact setLIntegral_congr_fun_ae hB (hf.mono fun w hw _ => hw)
  · exact ((hk'.comp measurable_swap).mul (hg'.comp measurable_fst)).aemeasurable

end Stats

import Verif.Lemmas.RealCdf2
import Verif.Lemmas.QuantIdeal
import Mathlib.Analysis.Calculus.Deriv.MeanValue

/-! The inverse Gaussian density rises up to its mode and falls after it, and what this means for a Newton step
(real analysis). -/

open Set Filter Topology MeasureTheory
namespace Stats
open Spec Real

/-- the mode, in the form used by the code -/
noncomputable def igMode (μ l : ℝ) : ℝ := μ * (√(1 + 9 * (μ / l) * (μ / l) / 4) - 3 * (μ / l) / 2)

theorem igMode_root {μ l : ℝ} (hm : 0 < μ) (hl : 0 < l) :
    0 < igMode μ l ∧ l * igMode μ l ^ 2 + 3 * μ ^ 2 * igMode μ l - l * μ ^ 2 = 0 := by
  have hq : 0 < μ / l := by positivity
  have hr : (0 : ℝ) ≤ 1 + 9 * (μ / l) * (μ / l) / 4 := by positivity
  have hs := Real.sq_sqrt hr
  set s := √(1 + 9 * (μ / l) * (μ / l) / 4) with hsdef
  have hgt : 3 * (μ / l) / 2 < s := by
    rw [hsdef]; apply Real.lt_sqrt_of_sq_lt; nlinarith
  constructor
  · rw [igMode]; exact mul_pos hm (by linarith)
  · have e : l * (μ / l) = μ := by field_simp
    rw [igMode, ← hsdef]
    set q := μ / l
    have e2 : μ = l * q := e.symm
    rw [e2]
    have : s ^ 2 = 1 + 9 * q * q / 4 := hs
    linear_combination (l * (l * q) ^ 2) * this

noncomputable def igLog (μ l x : ℝ) : ℝ := Real.log √(l / (2 * π)) - 3 / 2 * Real.log x - l * (x - μ) ^ 2 / (2 * μ ^ 2 * x)

theorem invgaussPdf_exp {μ l x : ℝ} (hl : 0 < l) (hx : 0 < x) : invgaussPdf μ l x = Real.exp (igLog μ l x) := by
  have h1 : 0 < √(l / (2 * π * x ^ 3)) := Real.sqrt_pos.2 (by positivity)
  rw [invgaussPdf, if_pos hx, igLog, sub_eq_add_neg _ (l * (x - μ) ^ 2 / (2 * μ ^ 2 * x)), Real.exp_add, ← neg_div]
  congr 1
  rw [Real.exp_sub, Real.exp_log (Real.sqrt_pos.2 (by positivity)), mul_comm (3 / 2 : ℝ), ← Real.rpow_def_of_pos hx]
  have e : x ^ (3 / 2 : ℝ) = √(x ^ 3) := by
    rw [Real.sqrt_eq_rpow, ← Real.rpow_natCast, ← Real.rpow_mul hx.le]; norm_num
  rw [e, ← Real.sqrt_div (by positivity), div_div]

theorem hasDerivAt_igLog {μ l x : ℝ} (hm : 0 < μ) (hx : 0 < x) : HasDerivAt (igLog μ l)
    (-(l * x ^ 2 + 3 * μ ^ 2 * x - l * μ ^ 2) / (2 * μ ^ 2 * x ^ 2)) x := by
  have h1 := (Real.hasDerivAt_log hx.ne').const_mul (3 / 2 : ℝ)
  have h2 : HasDerivAt (fun x : ℝ => l * (x - μ) ^ 2 / (2 * μ ^ 2 * x)) _ x :=
    ((((hasDerivAt_id x).sub_const μ).pow 2).const_mul l).div ((hasDerivAt_id x).const_mul (2 * μ ^ 2))
      (by positivity)
  refine ((h1.const_sub _).sub h2).congr_deriv ?_
  simp
  field_simp
  ring

theorem invgaussPdf_antitone {μ l : ℝ} (hm : 0 < μ) (hl : 0 < l) :
    AntitoneOn (invgaussPdf μ l) (Ici (igMode μ l)) := by
  obtain ⟨hp, hr⟩ := igMode_root hm hl
  have h : AntitoneOn (igLog μ l) (Ici (igMode μ l)) := by
    apply antitoneOn_of_deriv_nonpos (convex_Ici _)
    · exact fun x hx => (hasDerivAt_igLog hm (hp.trans_le hx)).continuousAt.continuousWithinAt
    · rw [interior_Ici]
      exact fun x hx => (hasDerivAt_igLog hm (hp.trans hx)).differentiableAt.differentiableWithinAt
    · rw [interior_Ici]
      intro x hx
      have hx' : igMode μ l < x := hx
      have hx0 : 0 < x := hp.trans hx
      rw [(hasDerivAt_igLog hm hx0).deriv]
      apply div_nonpos_of_nonpos_of_nonneg _ (by positivity)
      have h1 : l * igMode μ l ^ 2 ≤ l * x ^ 2 := mul_le_mul_of_nonneg_left (by nlinarith) hl.le
      have h2 : 3 * μ ^ 2 * igMode μ l ≤ 3 * μ ^ 2 * x := mul_le_mul_of_nonneg_left hx'.le (by positivity)
      linarith
  intro x hx y hy hxy
  rw [invgaussPdf_exp hl (hp.trans_le hx), invgaussPdf_exp hl (hp.trans_le hy)]
  exact Real.exp_le_exp.2 (h hx hy hxy)

theorem invgaussPdf_monotone {μ l : ℝ} (hm : 0 < μ) (hl : 0 < l) :
    MonotoneOn (invgaussPdf μ l) (Ioc 0 (igMode μ l)) := by
  obtain ⟨hp, hr⟩ := igMode_root hm hl
  have h : MonotoneOn (igLog μ l) (Ioc 0 (igMode μ l)) := by
    apply monotoneOn_of_deriv_nonneg (convex_Ioc _ _)
    · exact fun x hx => (hasDerivAt_igLog hm hx.1).continuousAt.continuousWithinAt
    · rw [interior_Ioc]
      exact fun x hx => (hasDerivAt_igLog hm hx.1).differentiableAt.differentiableWithinAt
    · rw [interior_Ioc]
      intro x hx
      obtain ⟨hx0, hx'⟩ := hx
      rw [(hasDerivAt_igLog hm hx0).deriv]
      apply div_nonneg _ (by positivity)
      have h1 : l * x ^ 2 ≤ l * igMode μ l ^ 2 := mul_le_mul_of_nonneg_left (by nlinarith) hl.le
      have h2 : 3 * μ ^ 2 * x ≤ 3 * μ ^ 2 * igMode μ l := mul_le_mul_of_nonneg_left hx'.le (by positivity)
      linarith
  intro x hx y hy hxy
  rw [invgaussPdf_exp hl hx.1, invgaussPdf_exp hl hy.1]
  exact Real.exp_le_exp.2 (h hx hy hxy)

theorem IsCdf.sub_eq {F f : ℝ → ℝ} (h : IsCdf F f) (x y : ℝ) : F y - F x = ∫ t in x..y, f t := by
  rw [← h.running x, ← h.running y,
    intervalIntegral.integral_Iic_sub_Iic h.integrable.integrableOn h.integrable.integrableOn]

/-- to the right of the mode the distribution function lies below its tangent -/
theorem IsCdf.sub_le_right {F f : ℝ → ℝ} (h : IsCdf F f) {x y : ℝ} (hxy : x ≤ y) (ha : AntitoneOn f (Ici x)) :
    F y - F x ≤ f x * (y - x) := by
  rw [h.sub_eq]
  have : ∫ t in x..y, f t ≤ ∫ _ in x..y, f x := by
    apply intervalIntegral.integral_mono_on hxy h.integrable.intervalIntegrable (by simp)
    intro t ht
    exact ha self_mem_Ici ht.1 ht.1
  rw [intervalIntegral.integral_const, smul_eq_mul, mul_comm] at this
  exact this

/-- to the left of the mode it lies above its tangent -/
theorem IsCdf.sub_le_left {F f : ℝ → ℝ} (h : IsCdf F f) {x y : ℝ} (hy : 0 < y) (hxy : y ≤ x)
    (ha : MonotoneOn f (Ioc 0 x)) : F x - F y ≤ f x * (x - y) := by
  rw [h.sub_eq]
  have : ∫ t in y..x, f t ≤ ∫ _ in y..x, f x := by
    apply intervalIntegral.integral_mono_on hxy h.integrable.intervalIntegrable (by simp)
    intro t ht
    exact ha ⟨hy.trans_le ht.1, ht.2⟩ ⟨hy.trans_le hxy, le_rfl⟩ ht.2
  rw [intervalIntegral.integral_const, smul_eq_mul, mul_comm] at this
  exact this

end Stats

import Verif.Lemmas.RealCdf
import Mathlib.Analysis.Real.Pi.Bounds

/-! Bounds of the normal tail (Mills' ratio). -/

open Classical
open Set Filter Topology

namespace Stats
open Spec

theorem antitone_tail {g g' : ℝ → ℝ} (hd : ∀ x, 0 < x → HasDerivAt g (g' x) x) (hn : ∀ x, 0 < x → g' x ≤ 0)
    (hl : Tendsto g atTop (𝓝 0)) {z : ℝ} (hz : 0 < z) : 0 ≤ g z := by
  have ha : AntitoneOn g (Ioi 0) := by
    refine antitoneOn_of_deriv_nonpos (convex_Ioi 0) (fun x hx => (hd x hx).continuousAt.continuousWithinAt)
      (fun x hx => ?_) (fun x hx => ?_)
    · rw [interior_Ioi] at hx; exact (hd x hx).differentiableAt.differentiableWithinAt
    · rw [interior_Ioi] at hx; rw [(hd x hx).deriv]; exact hn x hx
  refine le_of_tendsto hl ?_
  filter_upwards [eventually_ge_atTop z] with y hy
  exact ha hz (hz.trans_le hy) hy

theorem tendsto_exp_neg_sq : Tendsto (fun y : ℝ => Real.exp (-y ^ 2)) atTop (𝓝 0) := by
  refine Real.tendsto_exp_atBot.comp ?_
  exact tendsto_neg_atTop_atBot.comp (tendsto_pow_atTop (by norm_num))

theorem hasDerivAt_exp_neg_sq (x : ℝ) : HasDerivAt (fun y : ℝ => Real.exp (-y ^ 2)) (-(2 * x) * Real.exp (-x ^ 2)) x := by
  have h := ((hasDerivAt_pow 2 x).neg).exp
  refine h.congr_deriv ?_
  simp; ring

theorem erfc_le {y : ℝ} (hy : 0 < y) : 1 - Spec.erf y ≤ Real.exp (-y ^ 2) / (√Real.pi * y) := by
  have hp : 0 < √Real.pi := Real.sqrt_pos.2 Real.pi_pos
  have := antitone_tail (g := fun y => Real.exp (-y ^ 2) / (√Real.pi * y) - (1 - Spec.erf y))
    (g' := fun y => -(Real.exp (-y ^ 2) / (√Real.pi * y ^ 2))) (fun x hx => ?_) (fun x hx => ?_) ?_ hy
  · linarith
  · refine (((hasDerivAt_exp_neg_sq x).div ((hasDerivAt_id x).const_mul √Real.pi) (by positivity)).sub
      ((hasDerivAt_const x 1).sub (hasDerivAt_erf x))).congr_deriv ?_
    simp only [id]
    field_simp
    ring
  · have : 0 ≤ Real.exp (-x ^ 2) / (√Real.pi * x ^ 2) := by positivity
    linarith
  · have h1 : Tendsto (fun y : ℝ => Real.exp (-y ^ 2) / (√Real.pi * y)) atTop (𝓝 0) :=
      tendsto_exp_neg_sq.div_atTop (tendsto_id.const_mul_atTop hp)
    have h2 : Tendsto (fun y : ℝ => 1 - Spec.erf y) atTop (𝓝 (1 - 1)) := tendsto_const_nhds.sub tendsto_erf_atTop
    simpa using h1.sub h2

theorem le_erfc {y : ℝ} (hy : 0 < y) : 2 * y / (√Real.pi * (1 + 2 * y ^ 2)) * Real.exp (-y ^ 2) ≤ 1 - Spec.erf y := by
  have hp : 0 < √Real.pi := Real.sqrt_pos.2 Real.pi_pos
  have := antitone_tail (g := fun y => (1 - Spec.erf y) - 2 * y / (√Real.pi * (1 + 2 * y ^ 2)) * Real.exp (-y ^ 2))
    (g' := fun y => -(4 / (√Real.pi * (1 + 2 * y ^ 2) ^ 2) * Real.exp (-y ^ 2))) (fun x hx => ?_) (fun x hx => ?_) ?_ hy
  · linarith
  · refine (((hasDerivAt_const x 1).sub (hasDerivAt_erf x)).sub
      ((((hasDerivAt_id x).const_mul 2).div ((((hasDerivAt_pow 2 x).const_mul 2).const_add 1).const_mul √Real.pi)
        (by positivity)).mul (hasDerivAt_exp_neg_sq x))).congr_deriv ?_
    simp only [id, Pi.div_apply]
    field_simp
    push_cast
    ring
  · have : 0 ≤ 4 / (√Real.pi * (1 + 2 * x ^ 2) ^ 2) * Real.exp (-x ^ 2) := by positivity
    linarith
  · have h1 : Tendsto (fun y : ℝ => 2 * y / (√Real.pi * (1 + 2 * y ^ 2)) * Real.exp (-y ^ 2)) atTop (𝓝 0) := by
      refine squeeze_zero' (g := fun y : ℝ => Real.exp (-y ^ 2)) ?_ ?_ tendsto_exp_neg_sq
      · filter_upwards [eventually_ge_atTop 0] with y hy
        positivity
      · filter_upwards [eventually_ge_atTop 0] with y hy
        refine mul_le_of_le_one_left (Real.exp_pos _).le ?_
        have h1 : 1 ≤ √Real.pi := Real.one_le_sqrt.2 (by linarith [Real.pi_gt_three])
        rw [div_le_one (by positivity)]
        nlinarith [sq_nonneg (y - 1), sq_nonneg y]
    have h2 : Tendsto (fun y : ℝ => 1 - Spec.erf y) atTop (𝓝 (1 - 1)) := tendsto_const_nhds.sub tendsto_erf_atTop
    simpa using h2.sub h1

end Stats

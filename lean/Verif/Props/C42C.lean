import Verif.Props.C42
import Verif.Props.C08
import Verif.Lemmas.InvGaussMode

/-!
# C42: the refinement loop of the Student-t quantile

In the tail `qt` starts from Hill's expansion and refines six times. In exact arithmetic the quantile is a fixed point
of the refinement, and a start close enough to it has its error cubed in every round.
-/

set_option linter.unusedSectionVars false
open Classical MeasureTheory Filter Topology
namespace Stats
open Fl Spec
variable [Lib] [Ideal]

theorem hasDerivAt_tPdf {ν : ℝ} (h : 0 < ν) (v : ℝ) :
    HasDerivAt (tPdf ν) (-(tPdf ν v * ((1 + ν) * v / (ν + v ^ 2)))) v := by
  have h1 : HasDerivAt (fun x : ℝ => 1 + x ^ 2 / ν) (2 * v / ν) v := by
    have := ((hasDerivAt_pow 2 v).div_const ν).const_add 1
    simpa using this
  have hp : 0 < 1 + v ^ 2 / ν := by positivity
  have h2 := (h1.rpow_const (p := -((ν + 1) / 2)) (Or.inl hp.ne')).const_mul
    (Real.Gamma ((ν + 1) / 2) / (√(ν * Real.pi) * Real.Gamma (ν / 2)))
  refine h2.congr_deriv ?_
  rw [tPdf, Real.rpow_sub_one hp.ne']
  have : ν + v ^ 2 ≠ 0 := by positivity
  field_simp
  ring

theorem continuous_tPdf {ν : ℝ} (h : 0 < ν) : Continuous (tPdf ν) :=
  continuous_iff_continuousAt.2 fun v => (hasDerivAt_tPdf h v).continuousAt

theorem tPdf_pos {ν : ℝ} (h : 0 < ν) (v : ℝ) : 0 < tPdf ν v := by
  have h1 := Real.Gamma_pos_of_pos (half_pos h)
  have h2 := Real.Gamma_pos_of_pos (show 0 < (ν + 1) / 2 by linarith)
  have := Real.pi_pos
  rw [tPdf]
  positivity

theorem IsCdf.hasDerivAt {F f : ℝ → ℝ} (h : IsCdf F f) (hf : Continuous f) (v : ℝ) : HasDerivAt F (f v) v := by
  have h1 : F = fun y => F 0 + ∫ t in (0 : ℝ)..y, f t := by
    funext y; rw [← h.sub_eq]; ring
  rw [h1]
  exact (intervalIntegral.integral_hasDerivAt_right (hf.intervalIntegrable _ _)
    (hf.stronglyMeasurableAtFilter _ _) hf.continuousAt).const_add _

/-! ### one round, over the reals -/

/-- the correction -/
noncomputable def tCorr (ν p v : ℝ) : ℝ := (1 - tCdfCoded ν v - p) / tPdf ν v
noncomputable def tSlope (ν v : ℝ) : ℝ := (1 + ν) * v / (ν + v ^ 2)
noncomputable def tRound (ν p v : ℝ) : ℝ := v + tCorr ν p v * (1 + tCorr ν p v * v * (1 + ν) / (2 * (ν + v * v)))

theorem tRound_eq {ν : ℝ} (h : 0 < ν) (p v : ℝ) : tRound ν p v = v + tCorr ν p v + tCorr ν p v ^ 2 * tSlope ν v / 2 := by
  have : ν + v ^ 2 ≠ 0 := by positivity
  rw [tRound, tSlope, ← sq v]
  field_simp
  ring

theorem hasDerivAt_tSlope {ν : ℝ} (h : 0 < ν) (v : ℝ) :
    HasDerivAt (tSlope ν) ((1 + ν) * (ν - v ^ 2) / (ν + v ^ 2) ^ 2) v := by
  have hp : ν + v ^ 2 ≠ 0 := by positivity
  have h1 : HasDerivAt (fun x : ℝ => (1 + ν) * x) (1 + ν) v := by simpa using (hasDerivAt_id v).const_mul (1 + ν)
  have h2 : HasDerivAt (fun x : ℝ => ν + x ^ 2) (2 * v) v := by simpa using (hasDerivAt_pow 2 v).const_add ν
  refine (h1.div h2 hp).congr_deriv ?_
  congr 1
  ring

theorem hasDerivAt_tCorr {ν : ℝ} (h : 0 < ν) (p v : ℝ) :
    HasDerivAt (tCorr ν p) (-1 + tCorr ν p v * tSlope ν v) v := by
  have hf := tPdf_pos h v
  have h1 := (((isCdf_tCoded h).hasDerivAt (continuous_tPdf h) v).const_sub 1).sub_const p
  refine (h1.div (hasDerivAt_tPdf h v) hf.ne').congr_deriv ?_
  have : ν + v ^ 2 ≠ 0 := by positivity
  rw [tCorr, tSlope]
  field_simp
  ring

/-- the derivative of a round vanishes to second order at the quantile -/
theorem hasDerivAt_tRound {ν : ℝ} (h : 0 < ν) (p v : ℝ) :
    HasDerivAt (tRound ν p) (tCorr ν p v ^ 2 * (tSlope ν v ^ 2 + (1 + ν) * (ν - v ^ 2) / (ν + v ^ 2) ^ 2 / 2)) v := by
  have e : tRound ν p = fun v => v + tCorr ν p v + tCorr ν p v ^ 2 * tSlope ν v / 2 := funext (tRound_eq h p)
  rw [e]
  have h1 := hasDerivAt_tCorr h p v
  refine (((hasDerivAt_id v).add h1).add (((h1.pow 2).mul (hasDerivAt_tSlope h v)).div_const 2)).congr_deriv ?_
  simp only [Pi.pow_apply]
  push_cast
  ring

theorem tCorr_zero {ν p q : ℝ} (hq : tCdfCoded ν q = 1 - p) : tCorr ν p q = 0 := by
  rw [tCorr, hq]; simp

/-- a round cubes the error, up to a factor -/
theorem tRound_cubic {ν p q : ℝ} (h : 0 < ν) (hq : tCdfCoded ν q = 1 - p) :
    ∃ K δ : ℝ, 0 < K ∧ 0 < δ ∧ K * δ ≤ 1 / 2 ∧ ∀ v, |v - q| ≤ δ → |tRound ν p v - q| ≤ K ^ 2 * |v - q| ^ 3 := by
  have h0 := tCorr_zero hq
  have hx : tCorr ν p =O[𝓝 q] fun v => v - q := by
    have := (hasDerivAt_tCorr h p q).differentiableAt.isBigO_sub
    simpa [h0] using this
  have hb : (fun v => tSlope ν v ^ 2 + (1 + ν) * (ν - v ^ 2) / (ν + v ^ 2) ^ 2 / 2) =O[𝓝 q] fun _ => (1 : ℝ) := by
    have hc : ContinuousAt (fun v => tSlope ν v ^ 2 + (1 + ν) * (ν - v ^ 2) / (ν + v ^ 2) ^ 2 / 2) q := by
      have h1 := (hasDerivAt_tSlope h q).continuousAt
      have h2 : ContinuousAt (fun v : ℝ => (1 + ν) * (ν - v ^ 2) / (ν + v ^ 2) ^ 2 / 2) q := by
        refine ContinuousAt.div_const (ContinuousAt.div (by fun_prop) (by fun_prop) ?_) 2
        positivity
      exact (h1.pow 2).add h2
    exact hc.isBigO_one ℝ
  have hg := ((hx.pow 2).mul hb)
  obtain ⟨M, hM, hg⟩ := hg.exists_pos
  have hev := hg.bound
  obtain ⟨δ, hδ, hball⟩ := Metric.eventually_nhds_iff_ball.1 hev
  have hK := Real.sqrt_pos.2 hM
  refine ⟨√M, min (δ / 2) (1 / (2 * √M)), hK, by positivity, ?_, fun v hv => ?_⟩
  · calc √M * min (δ / 2) (1 / (2 * √M)) ≤ √M * (1 / (2 * √M)) :=
        mul_le_mul_of_nonneg_left (min_le_right _ _) hK.le
      _ = 1 / 2 := by field_simp
  · have hd : |v - q| < δ := (hv.trans (min_le_left _ _)).trans_lt (by linarith)
    have hfix : tRound ν p q = q := by rw [tRound, h0]; ring
    have key := (convex_closedBall q |v - q|).norm_image_sub_le_of_norm_hasDerivWithin_le
      (f := tRound ν p) (C := M * |v - q| ^ 2) (x := q) (y := v)
      (fun w _ => (hasDerivAt_tRound h p w).hasDerivWithinAt) (fun w hw => ?_)
      (Metric.mem_closedBall_self (abs_nonneg _)) (by rw [Metric.mem_closedBall, Real.dist_eq])
    · rw [hfix, Real.norm_eq_abs, Real.norm_eq_abs] at key
      rw [Real.sq_sqrt hM.le]
      calc _ ≤ M * |v - q| ^ 2 * |v - q| := key
        _ = _ := by ring
    · rw [Metric.mem_closedBall, Real.dist_eq] at hw
      have := hball w (by rw [Metric.mem_ball, Real.dist_eq]; exact hw.trans_lt hd)
      refine this.trans ?_
      rw [mul_one, Real.norm_eq_abs, abs_pow]
      gcongr

/-! ### the loop of the code -/

theorem iter_update {ν p v : ℝ} (hν : Lib.eps ≤ ν) :
    qt_int_y_2_iter_val_update (fin v) (fin ν) ((1 - pt (fin v) (fin ν) false - fin p) / dt (fin v) (fin ν) false) =
      fin (tRound ν p v) := by
  have h := Lib.eps_pos.trans_le hν
  have h1 := tPdf_pos h v
  have h2 : 2 * (ν + v * v) ≠ 0 := by nlinarith [mul_self_nonneg v]
  have hd : dt (fin v) (fin ν) false = fin (tPdf ν v) := ((C08_dt hν) v trivial).2.1
  rw [pt_coded hν, hd]
  simp only [qt_int_y_2_iter_val_update, ideal, ifin_div _ h1.ne', ifin_div _ h2]
  rfl

theorem iter_loop {ν p q K δ : ℝ} (hν : Lib.eps ≤ ν) (hK : 0 < K) (hδ : K * δ ≤ 1 / 2)
    (hr : ∀ v, |v - q| ≤ δ → |tRound ν p v - q| ≤ K ^ 2 * |v - q| ^ 3) (n : ℕ) :
    ∀ (v x : Fl) (v' : ℝ), qt_int_y_2_iter_val_update v (fin ν) x = fin v' → |v' - q| ≤ δ →
      ∃ w, qt_int_y_2_iter_loop (fin p) (fin ν) n v x = fin w ∧ K * |w - q| ≤ (K * |v' - q|) ^ 3 ^ n := by
  induction n with
  | zero =>
    intro v x v' h _
    exact ⟨v', by rw [qt_int_y_2_iter_loop, h], by simp⟩
  | succ n ih =>
    intro v x v' h hv
    have h0 : 0 ≤ K * |v' - q| := by positivity
    have h1 : K * |v' - q| ≤ 1 := by nlinarith
    have hc : K * |tRound ν p v' - q| ≤ (K * |v' - q|) ^ 3 := by
      have := mul_le_mul_of_nonneg_left (hr v' hv) hK.le
      calc _ ≤ _ := this
        _ = _ := by ring
    have hs : |tRound ν p v' - q| ≤ δ := by
      have : K * |tRound ν p v' - q| ≤ K * |v' - q| := hc.trans (by
        calc (K * |v' - q|) ^ 3 ≤ (K * |v' - q|) ^ 1 := pow_le_pow_of_le_one h0 h1 (by norm_num)
          _ = _ := pow_one _)
      exact (le_of_mul_le_mul_left this hK).trans hv
    obtain ⟨w, e, hw⟩ := ih (fin v') _ (tRound ν p v') (iter_update hν) hs
    refine ⟨w, by rw [qt_int_y_2_iter_loop, h]; exact e, hw.trans ?_⟩
    rw [pow_succ', pow_mul]
    exact pow_le_pow_left₀ (by positivity) hc _

/-- Around the quantile there is a neighbourhood in which every round of the loop cubes the error (measured in a unit
`1/K`): after the code's six rounds it has been raised to the power 729. -/
theorem C42_refine {ν p q : ℝ} (hν : Lib.eps ≤ ν) (hq : ∫ t in Set.Ioi q, tPdf ν t = p) :
    ∃ K δ : ℝ, 0 < K ∧ 0 < δ ∧ K * δ ≤ 1 / 2 ∧ ∀ v, |v - q| ≤ δ → ∀ n,
      ∃ w, qt_int_y_2_iter_loop (fin p) (fin ν) n (fin v) 0 = fin w ∧ K * |w - q| ≤ (K * |v - q|) ^ 3 ^ n := by
  have h := Lib.eps_pos.trans_le hν
  have hc := isCdf_tCoded h
  have hq' : tCdfCoded ν q = 1 - p := by
    have := integral_add_compl (measurableSet_Iic (a := q)) hc.integrable
    rw [Set.compl_Iic, hc.running, hc.total, hq] at this
    linarith
  obtain ⟨K, δ, hK, hδ, hKδ, hr⟩ := tRound_cubic h hq'
  refine ⟨K, δ, hK, hδ, hKδ, fun v hv n => iter_loop hν hK hKδ hr n (fin v) 0 v ?_ hv⟩
  have h2 : 2 * (ν + v * v) ≠ 0 := by nlinarith [mul_self_nonneg v]
  simp only [qt_int_y_2_iter_val_update, ideal, ifin_div _ h2]
  simp

/-- In particular the quantile is a fixed point. -/
theorem C42_refine_fixed {ν p q : ℝ} (hν : Lib.eps ≤ ν) (hq : ∫ t in Set.Ioi q, tPdf ν t = p) (n : ℕ) :
    qt_int_y_2_iter_loop (fin p) (fin ν) n (fin q) 0 = fin q := by
  obtain ⟨K, δ, hK, hδ, -, h⟩ := C42_refine hν hq
  obtain ⟨w, e, hw⟩ := h q (by simpa using hδ.le) n
  rw [sub_self, abs_zero, mul_zero, zero_pow (by positivity)] at hw
  have : |w - q| ≤ 0 := by nlinarith [abs_nonneg (w - q)]
  rw [e, sub_eq_zero.1 (abs_eq_zero.1 (le_antisymm this (abs_nonneg _)))]

/-- The tail branch of `qt(p/2)`, for a first value `√(ν y)` close to the upper quantile. -/
theorem C42_qt_tail {ν p q : ℝ} (hν : Lib.eps ≤ ν) (hq : ∫ t in Set.Ioi q, tPdf ν t = p / 2) :
    ∃ K δ : ℝ, 0 < K ∧ 0 < δ ∧ K * δ ≤ 1 / 2 ∧ ∀ y, 0 ≤ y → |√(ν * y) - q| ≤ δ →
      ∃ w, qt_int_y_2_iter_begin (fin p) (fin ν) (fin y) = fin w ∧ K * |w - q| ≤ (K * |√(ν * y) - q|) ^ 729 := by
  have h := Lib.eps_pos.trans_le hν
  obtain ⟨K, δ, hK, hδ, hKδ, hr⟩ := C42_refine hν hq
  refine ⟨K, δ, hK, hδ, hKδ, fun y hy hv => ?_⟩
  obtain ⟨w, e, hw⟩ := hr _ hv 6
  refine ⟨w, ?_, by norm_num at hw; exact hw⟩
  rw [qt_int_y_2_iter_begin]
  simp only [ideal, ifin_div _ (two_ne_zero' ℝ), isqrt (show 0 ≤ ν * y by positivity)] at e ⊢
  exact e

end Stats

namespace Stats.ExamplesC42
open Fl Spec
open scoped Stats.Exact

/-- three degrees of freedom, the point 3 -/
example := C42_refine (ν := 3) (q := 3) (Exact.eps_le (by norm_num)) rfl

end Stats.ExamplesC42

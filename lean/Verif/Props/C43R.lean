import Verif.Props.C43Q
import Verif.Props.C21B
import Verif.Lemmas.Meets

/-! # C43 for `qinvgauss`

The Newton iteration stays between the mode and the quantile (C21), so its limits in the parameters are those of the mode
and of the quantile; the code returns NaN at both infinite parameters. -/

set_option linter.unusedSectionVars false
open Classical
open Filter Topology
namespace Stats
open Fl Spec
variable [Lib] [Ideal]

/-- The mode tends to the mean when the shape parameter grows. -/
theorem igMode_lambda (mu : ℝ) : Tendsto (fun l => igMode mu l) atTop (𝓝 mu) := by
  have h0 : Tendsto (fun l : ℝ => mu / l) atTop (𝓝 0) := tendsto_const_nhds.div_atTop tendsto_id
  have h1 : Tendsto (fun l : ℝ => mu * (√(1 + 9 * (mu / l) * (mu / l) / 4) - 3 * (mu / l) / 2)) atTop
      (𝓝 (mu * (√(1 + 9 * 0 * 0 / 4) - 3 * 0 / 2))) :=
    ((((((h0.const_mul 9).mul h0).div_const 4).const_add 1).sqrt).sub ((h0.const_mul 3).div_const 2)).const_mul mu
  simpa [igMode] using h1

/-- The mode is less than a third of the shape parameter. -/
theorem igMode_le {mu l : ℝ} (hm : 0 < mu) (hl : 0 < l) : igMode mu l ≤ l / 3 := by
  obtain ⟨h0, h1⟩ := igMode_root hm hl
  have h2 : mu ^ 2 * (3 * igMode mu l - l) ≤ 0 := by nlinarith [mul_pos hl (pow_pos h0 2)]
  have h3 : 0 < mu ^ 2 := by positivity
  by_contra h
  push Not at h
  nlinarith [mul_pos h3 (by linarith : 0 < 3 * igMode mu l - l)]

/-- The coded value lies between mode and quantile: a form with the real functions. -/
theorem qinvgauss_real {mu l p : ℝ} (hm : 0 < mu) (hl : 0 < l) (h0 : 0 < p) (h1 : p < 1) :
    ∃ q x : ℝ, 0 < q ∧ invgaussCdf mu l q = p ∧ qinvgauss (fin p) (fin mu) (fin l) = fin x ∧ 0 < x ∧
      Min.min (igMode mu l) q ≤ x ∧ x ≤ Max.max (igMode mu l) q := by
  obtain ⟨q, x, m, hq0, hq, hx, hx0, hmode, hb⟩ := C21_qinvgauss_between hm hl h0 h1
  rw [invgauss_mode_fin hl] at hmode
  injection hmode with hmode
  subst hmode
  rw [pinvgauss_fin hm hl] at hq
  injection hq with hq
  refine ⟨q, x, hq0, ?_, hx, hx0, ?_, ?_⟩
  · simpa [igF, hq0] using hq
  · rcases hb with h | h
    · exact (min_le_left _ _).trans h.1
    · exact (min_le_right _ _).trans h.1
  · rcases hb with h | h
    · exact h.2.trans (le_max_right _ _)
    · exact h.2.trans (le_max_left _ _)

theorem ig_lt_of_cdf_lt {mu l x y : ℝ} (hm : 0 < mu) (hl : 0 < l) (hx : 0 < x) (hy : 0 < y)
    (h : invgaussCdf mu l x < invgaussCdf mu l y) : x < y := by
  by_contra hn
  have := (isCdf_invgauss hm hl).mono (not_lt.1 hn)
  simp only [if_pos hx, if_pos hy] at this
  linarith

/-- For a growing shape parameter the coded quantile tends to the mean, whatever the probability. -/
theorem C43_qinvgauss_lambda_limit {mu p : ℝ} (hm : 0 < mu) (h0 : 0 < p) (h1 : p < 1) :
    Approaches atTop (fun l => qinvgauss (fin p) (fin mu) (fin l)) (fin mu) := by
  have key : ∀ l : ℝ, 0 < l → ∃ q x : ℝ, 0 < q ∧ invgaussCdf mu l q = p ∧
      qinvgauss (fin p) (fin mu) (fin l) = fin x ∧ 0 < x ∧
      Min.min (igMode mu l) q ≤ x ∧ x ≤ Max.max (igMode mu l) q := fun l hl => qinvgauss_real hm hl h0 h1
  choose! q x hq0 hq hx hx0 hlo hhi using key
  have hqt : Tendsto q atTop (𝓝 mu) := by
    rw [tendsto_order]
    constructor
    · intro a ha
      by_cases ha0 : 0 < a
      · have h2 := Lim.invgaussCdf_lambda hm ha0 ha.ne
        rw [if_neg (not_le.2 ha)] at h2
        filter_upwards [h2.eventually_lt_const h0, eventually_gt_atTop 0] with l hl hl0
        exact ig_lt_of_cdf_lt hm hl0 ha0 (hq0 l hl0) (by rw [hq l hl0]; exact hl)
      · filter_upwards [eventually_gt_atTop 0] with l hl0
        exact (not_lt.1 ha0).trans_lt (hq0 l hl0)
    · intro b hb
      have hb0 : 0 < b := hm.trans hb
      have h2 := Lim.invgaussCdf_lambda hm hb0 hb.ne'
      rw [if_pos hb.le] at h2
      filter_upwards [h2.eventually_const_lt h1, eventually_gt_atTop 0] with l hl hl0
      exact ig_lt_of_cdf_lt hm hl0 (hq0 l hl0) hb0 (by rw [hq l hl0]; exact hl)
  refine ⟨x, ?_, ?_⟩
  · filter_upwards [eventually_gt_atTop 0] with l hl using hx l hl
  · have hmin := (igMode_lambda mu).min hqt
    have hmax := (igMode_lambda mu).max hqt
    rw [min_self] at hmin
    rw [max_self] at hmax
    refine tendsto_of_tendsto_of_tendsto_of_le_of_le' hmin hmax ?_ ?_
    · filter_upwards [eventually_gt_atTop 0] with l hl using hlo l hl
    · filter_upwards [eventually_gt_atTop 0] with l hl using hhi l hl
example : Approaches atTop (fun l => qinvgauss (fin (1 / 3)) (fin 2) (fin l)) (fin 2) :=
  C43_qinvgauss_lambda_limit (mu := 2) (p := 1 / 3) (hm := by meets) (h0 := by meets) (h1 := by meets)

/-- At the infinite shape parameter the code returns NaN although the values tend to the mean. -/
theorem C43_qinvgauss_lambda_violated {mu p : ℝ} (hm : 0 < mu) (h0 : 0 < p) (h1 : p < 1) :
    qinvgauss (fin p) (fin mu) pinf = nan ∧ ¬ LimTop (fun l => qinvgauss (fin p) (fin mu) l) := by
  have h : qinvgauss (fin p) (fin mu) pinf = nan := by
    unfold qinvgauss
    simp only [isPosinf, if_true, ite_self]
  exact ⟨h, by simp [LimTop, h, Approaches]⟩
example : qinvgauss (fin (1 / 3)) (fin 2) pinf = nan ∧ ¬ LimTop (fun l => qinvgauss (fin (1 / 3)) (fin 2) l) :=
  C43_qinvgauss_lambda_violated (mu := 2) (p := 1 / 3) (hm := by meets) (h0 := by meets) (h1 := by meets)

theorem qinvgauss_iter_nan (p mu lambda : Fl) (n : ℕ) : qinvgauss_compute_iter p mu lambda n nan = nan := by
  induction n with
  | zero => rfl
  | succ n ih =>
    rw [qinvgauss_compute_iter]
    split_ifs
    · rfl
    · simpa using ih

/-- For a growing mean the coded quantile stays within fixed positive bounds (the law tends to a Lévy law), while at the
infinite mean the code returns NaN. -/
theorem C43_qinvgauss_mu_violated {lambda p : ℝ} (hl : 0 < lambda) (h0 : 0 < p) (h1 : p < 1) :
    (∃ a b : ℝ, 0 < a ∧ ∀ᶠ mu in atTop, ∃ x, qinvgauss (fin p) (fin mu) (fin lambda) = fin x ∧ a ≤ x ∧ x ≤ b) ∧
      qinvgauss (fin p) pinf (fin lambda) = nan ∧
      ¬ LimTop (fun mu => qinvgauss (fin p) mu (fin lambda)) := by
  have hc : Continuous Phi := continuous_iff_continuousAt.2 fun z => (hasDerivAt_Phi z).continuousAt
  obtain ⟨a, ha0, ha⟩ : ∃ a : ℝ, 0 < a ∧ 2 * Phi (-√(lambda / a)) < p := by
    have h2 : Tendsto (fun x : ℝ => 2 * Phi (-√(lambda / x))) (𝓝[>] 0) (𝓝 (2 * 0)) := by
      refine (tendsto_Phi_atBot.comp (tendsto_neg_atTop_atBot.comp (Real.tendsto_sqrt_atTop.comp ?_))).const_mul 2
      exact tendsto_inv_nhdsGT_zero.const_mul_atTop hl
    rw [mul_zero] at h2
    obtain ⟨a, h3, h4⟩ := ((h2.eventually_lt_const h0).and self_mem_nhdsWithin).exists
    exact ⟨a, h4, h3⟩
  obtain ⟨b, hb0, hb⟩ : ∃ b : ℝ, 0 < b ∧ p < 2 * Phi (-√(lambda / b)) := by
    have h3 : Tendsto (fun x : ℝ => lambda / x) atTop (𝓝 0) := tendsto_const_nhds.div_atTop tendsto_id
    have h2 : Tendsto (fun x : ℝ => 2 * Phi (-√(lambda / x))) atTop (𝓝 (2 * Phi (-√0))) :=
      ((hc.tendsto _).comp h3.sqrt.neg).const_mul 2
    rw [Real.sqrt_zero, neg_zero, show Phi 0 = 1 / 2 by have := Phi_neg 0; rw [neg_zero] at this; linarith] at h2
    obtain ⟨b, h3, h4⟩ := ((h2.eventually_const_lt (by linarith : p < 2 * (1 / 2))).and (eventually_gt_atTop 0)).exists
    exact ⟨b, h4, h3⟩
  have hnan : qinvgauss (fin p) pinf (fin lambda) = nan := by
    have hi : invgauss_mode pinf (pinf / fin lambda) = nan := by
      simp [invgauss_mode, pinf_div_fin, hl.le, fin_mul_pinf, Fl.sqrt]
    simp [qinvgauss, invgauss_ok, prob_val_ok, not_lt.2 hl.le, hl.ne', h0.ne', h1.ne,
      not_lt.2 h0.le, not_lt.2 h1.le, qinvgauss_compute, hi, qinvgauss_iter_nan]
  refine ⟨⟨Min.min (lambda / 6) a, Max.max (lambda / 3) b, by positivity, ?_⟩, hnan, by simp [LimTop, hnan, Approaches]⟩
  filter_upwards [(Lim.invgaussCdf_mu (l := lambda) (x := a)).eventually_lt_const ha,
    (Lim.invgaussCdf_mu (l := lambda) (x := b)).eventually_const_lt hb, eventually_ge_atTop lambda] with mu hA hB hmu
  have hm : 0 < mu := hl.trans_le hmu
  obtain ⟨q, x, hq0, hq, hx, hx0, hlo, hhi⟩ := qinvgauss_real hm hl h0 h1
  have haq := ig_lt_of_cdf_lt hm hl ha0 hq0 (hq ▸ hA)
  have hqb := ig_lt_of_cdf_lt hm hl hq0 hb0 (hq ▸ hB)
  have hM := igMode_le hm hl
  have hM' : lambda / 6 ≤ igMode mu lambda := by
    obtain ⟨hr0, hr1⟩ := igMode_root hm hl
    have h5 : igMode mu lambda ^ 2 ≤ (mu / 3) ^ 2 := pow_le_pow_left₀ hr0.le (hM.trans (by linarith)) 2
    have h6 : 0 < mu ^ 2 := by positivity
    by_contra h
    push Not at h
    nlinarith [mul_le_mul_of_nonneg_left h5 hl.le, mul_pos h6 (sub_pos.2 h), mul_pos hl h6]
  exact ⟨x, hx, (min_le_min hM' haq.le).trans hlo, hhi.trans (max_le_max hM hqb.le)⟩
example : (∃ a b : ℝ, 0 < a ∧ ∀ᶠ mu in atTop, ∃ x, qinvgauss (fin (1 / 3)) (fin mu) (fin 2) = fin x ∧ a ≤ x ∧ x ≤ b) ∧
      qinvgauss (fin (1 / 3)) pinf (fin 2) = nan ∧
      ¬ LimTop (fun mu => qinvgauss (fin (1 / 3)) mu (fin 2)) :=
  C43_qinvgauss_mu_violated (lambda := 2) (p := 1 / 3) (hl := by meets) (h0 := by meets) (h1 := by meets)

end Stats

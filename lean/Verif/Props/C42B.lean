import Verif.Props.C42
import Verif.Lemmas.Limits2
import Mathlib.Analysis.Complex.ExponentialBounds

/-!
# C42: Student-t quantile with three degrees of freedom

Hill's algorithm is meant for the smaller of the two tails; the code passes `2p` also for `p > 1/2`. Then the
series around the normal quantile is used however far out the point is, and its denominator changes sign:
`qt` is not monotone in `p` and returns points that are far from the quantile.
-/

set_option linter.unusedSectionVars false
open Classical MeasureTheory
namespace Stats
open Fl Spec
variable [Lib] [Ideal]

/-- Hill's coefficients for three degrees of freedom -/
noncomputable def hill3D : ℝ :=
  3 * √(2 / 5) * √(Real.pi / 2) * (1 + (-3 + 94.5 / (300 + 78.696)) / 300)
noncomputable def hill3C (x : ℝ) : ℝ :=
  300 + (78.696 + 0.3 * (3 - 4.5) * (x + 0.6)) + x * (-2 + x * (-7 + x * (-5 + 0.05 * x * hill3D)))
noncomputable def hill3Y (x : ℝ) : ℝ :=
  x * (1 + ((x * x * (36 + x * x * (6.3 + x * x * 0.4)) + 94.5) / hill3C x - x * x - 3) / 300)

omit [Lib] [Ideal] in
theorem hill3D_bounds : 23 / 10 < hill3D ∧ hill3D < 24 / 10 := by
  have hpi := Real.pi_gt_d2
  have hpi' := Real.pi_lt_d2
  have e : √(2 / 5) * √(Real.pi / 2) = √(Real.pi / 5) := by
    rw [← Real.sqrt_mul (by norm_num)]; congr 1; ring
  have l : 79 / 100 < √(Real.pi / 5) := by
    apply Real.lt_sqrt_of_sq_lt; norm_num at *; linarith
  have u : √(Real.pi / 5) < 8 / 10 := by
    rw [Real.sqrt_lt' (by norm_num)]; norm_num at *; linarith
  rw [hill3D, mul_assoc 3, e]
  generalize √(Real.pi / 5) = w at *
  norm_num
  constructor <;> linarith

theorem hill3_value {x : ℝ} (hx : 0 ≤ x) (hc : hill3C x ≠ 0) (hy : 0.1 < 2 / 5 * hill3Y x * hill3Y x) :
    qt (fin (Phi x)) (fin 3) = fin √(3 * (Real.exp (2 / 5 * hill3Y x * hill3Y x) - 1)) := by
  have hd := hill3D_bounds
  have eA : qt_int_coef_a (fin 3) = fin (2 / 5) := by
    simp only [qt_int_coef_a, ideal, ifin_div _ (show (3 : ℝ) - 1 / 2 ≠ 0 by norm_num)]
    norm_num
  have eB : qt_int_coef_b (fin (2 / 5)) = fin 300 := by
    simp only [qt_int_coef_b, ideal, ifin_div _ (show (2 / 5 : ℝ) * (2 / 5) ≠ 0 by norm_num)]
    norm_num
  have eC : qt_int_coef_c (fin (2 / 5)) (fin 300) = fin 78.696 := by
    simp only [qt_int_coef_c, ideal, ifin_div _ (show (300 : ℝ) ≠ 0 by norm_num)]
    norm_num
  have eD : qt_int_coef_d (fin 3) (fin (2 / 5)) (fin 300) (fin 78.696) = fin hill3D := by
    simp only [qt_int_coef_d, SQRTHALFPI, Ideal.sqrtHalfPi, ideal, isqrt (show (0 : ℝ) ≤ 2 / 5 by norm_num),
      ifin_div _ (show (300 : ℝ) + 78.696 ≠ 0 by norm_num), ifin_div _ (show (300 : ℝ) ≠ 0 by norm_num), hill3D]
  have hP : 1 / 2 ≤ Phi x := by
    have h3 : Phi 0 = 1 / 2 := by have := Phi_neg 0; rw [neg_zero] at this; linarith
    have := strictMono_Phi.monotone hx; linarith
  have hz : 1 ≤ hill3D * (2 * Phi x) := by nlinarith
  have eY : qt_int_y_init (fin (2 * Phi x)) (fin 3) (fin hill3D) = fin ((hill3D * (2 * Phi x)) ^ (2 / 3 : ℝ)) := by
    simp only [qt_int_y_init, ideal, ifin_div _ (show (3 : ℝ) ≠ 0 by norm_num), ipow _ (show 0 < hill3D * (2 * Phi x) by linarith)]
  have hY : 0.05 + 2 / 5 < (hill3D * (2 * Phi x)) ^ (2 / 3 : ℝ) := by
    have := Real.one_le_rpow hz (show (0 : ℝ) ≤ 2 / 3 by norm_num)
    norm_num at this ⊢
    linarith
  have eQ : qnorm1 (half * fin (2 * Phi x)) = fin x := by
    have := qnorm_inv 0 one_pos x (Phi_pos _) (Phi_lt_one _)
    simp only [sub_zero, div_one] at this
    have e : 1 / 2 * (2 * Phi x) = Phi x := by ring
    simp only [ideal, e, qnorm1] at this ⊢
    rw [this]
  have e1 : qt_int_y_1 (fin x) (fin 3) (fin (2 / 5)) (fin 300) (fin 78.696) (fin hill3D) =
      fin (Real.exp (2 / 5 * hill3Y x * hill3Y x) - 1) := by
    have e5 : (3 : ℝ) < 5 := by norm_num
    have i1 : qt_int_coef_c_update (fin x) (fin 3) (fin 78.696) = fin (78.696 + 0.3 * (3 - 4.5) * (x + 0.6)) := by
      simp only [qt_int_coef_c_update, ideal, fin_lt_fin, if_pos e5]
    have f1 : 300 + (78.696 + 0.3 * (3 - 4.5) * (x + 0.6)) + x * (-2 + x * (-7 + x * (-5 + 0.05 * x * hill3D))) =
      hill3C x := rfl
    have f2 : x * (1 + ((x * x * (36 + x * x * (6.3 + x * x * 0.4)) + 94.5) / hill3C x - x * x - 3) / 300) = hill3Y x := rfl
    simp only [qt_int_y_1, i1, qt_int_y_1_stage2, qt_int_y_1_stage4, ideal, f1,
      ifin_div _ hc, ifin_div _ (show (300 : ℝ) ≠ 0 by norm_num), f2, gt_iff_lt,
      fin_lt_fin, if_pos hy]
  have e2 : 0 ≤ 3 * (Real.exp (2 / 5 * hill3Y x * hill3Y x) - 1) := by
    have := Real.add_one_le_exp (2 / 5 * hill3Y x * hill3Y x)
    norm_num at hy
    linarith
  have e05 : lit 0.05 + fin (2 / 5) = fin (0.05 + 2 / 5) := by simp only [ideal]
  have g : qt_int_main_iter (fin (2 * Phi x)) (fin 3) = fin √(3 * (Real.exp (2 / 5 * hill3Y x * hill3Y x) - 1)) := by
    simp only [qt_int_main_iter, eA, eB, eC, eD, eY, qt_int_choose, e05, gt_iff_lt, fin_lt_fin, if_pos hY, eQ, e1]
    simp only [ideal, isqrt e2]
  have h3 : Lib.eps ≤ (3 : ℝ) := Lib.eps_le.trans (by norm_num)
  have n : ¬ Phi x < 1 / 2 := by linarith
  have hu0 := Phi_pos x
  have hu1 := Phi_lt_one x
  rw [← g]
  simp only [qt, t_ok, prob_val_ok, ideal, qt_int_main, fin_feq_fin, hu0.ne', hu1.ne, gt_iff_lt, fin_lt_fin,
    not_lt.2 hu0.le, not_lt.2 hu1.le, eps, not_lt.2 h3, n]
  norm_num [show ∀ r, (fin r : Fl) ≠ nan from fun _ => Fl.noConfusion]

theorem qt_at3 : ∃ r, qt (fin (Phi 3)) (fin 3) = fin r ∧ 7 < r := by
  obtain ⟨d1, d2⟩ := hill3D_bounds
  have c1 : 182 < hill3C 3 := by rw [hill3C]; norm_num; linarith
  have c2 : hill3C 3 < 183 := by rw [hill3C]; norm_num; linarith
  have hy : 294 / 100 < hill3Y 3 := by
    have : 1220.4 / 183 < 1220.4 / hill3C 3 := div_lt_div_of_pos_left (by norm_num) (by linarith) c2
    rw [hill3Y]
    norm_num at this ⊢
    linarith
  have h3 : (3 : ℝ) ≤ 2 / 5 * hill3Y 3 * hill3Y 3 := by nlinarith
  refine ⟨_, hill3_value (by norm_num) (by linarith) (by norm_num at h3 ⊢; linarith), ?_⟩
  apply Real.lt_sqrt_of_sq_lt
  have he := Real.exp_le_exp.2 h3
  have : (27 / 10 : ℝ) ^ 3 ≤ Real.exp 3 := by
    rw [show (3 : ℝ) = ((3 : ℕ) : ℝ) * 1 by norm_num, Real.exp_nat_mul]
    have := Real.exp_one_gt_d9
    exact pow_le_pow_left₀ (by norm_num) (by linarith) 3
  norm_num at this ⊢
  linarith

theorem qt_at4 : ∃ r, qt (fin (Phi 4)) (fin 3) = fin r ∧ 0 < r ∧ r < 5 := by
  obtain ⟨d1, d2⟩ := hill3D_bounds
  have c1 : 32 < -hill3C 4 := by rw [hill3C]; norm_num; linarith
  have c2 : -hill3C 4 < 34 := by rw [hill3C]; norm_num; linarith
  have hy : 2 < hill3Y 4 ∧ hill3Y 4 < 223 / 100 := by
    have h1 : 3921.7 / 34 < 3921.7 / -hill3C 4 := div_lt_div_of_pos_left (by norm_num) (by linarith) c2
    have h2 : 3921.7 / -hill3C 4 < 3921.7 / 32 := div_lt_div_of_pos_left (by norm_num) (by linarith) c1
    rw [div_neg] at h1 h2
    rw [hill3Y]
    norm_num at h1 h2 ⊢
    constructor <;> linarith
  have h3 : (1 : ℝ) ≤ 2 / 5 * hill3Y 4 * hill3Y 4 := by nlinarith
  have h4 : 2 / 5 * hill3Y 4 * hill3Y 4 ≤ (2 : ℝ) := by nlinarith
  have he1 := Real.exp_le_exp.2 h3
  have he2 := Real.exp_le_exp.2 h4
  have hl := Real.add_one_le_exp (1 : ℝ)
  refine ⟨_, hill3_value (by norm_num) (by linarith) (by norm_num at h3 ⊢; linarith), Real.sqrt_pos.2 (by linarith), ?_⟩
  rw [Real.sqrt_lt' (by norm_num)]
  have : Real.exp 2 ≤ (28 / 10 : ℝ) ^ 2 := by
    rw [show (2 : ℝ) = ((2 : ℕ) : ℝ) * 1 by norm_num, Real.exp_nat_mul]
    have := Real.exp_one_lt_d9
    exact pow_le_pow_left₀ (by positivity) (by linarith) 2
  norm_num at this ⊢
  linarith

/-- `qt` is not monotone: at `Φ(3) ≈ 0.99865` it exceeds 7, at `Φ(4) ≈ 0.99997` it is below 5. -/
theorem C42_qt_mono_violated : ∃ u v r s : ℝ, 0 < u ∧ u < v ∧ v < 1 ∧ qt (fin u) (fin 3) = fin r ∧
    qt (fin v) (fin 3) = fin s ∧ s < r - 2 := by
  obtain ⟨r, hr, h7⟩ := qt_at3
  obtain ⟨s, hs, -, h5⟩ := qt_at4
  exact ⟨_, _, r, s, Phi_pos 3, strictMono_Phi (by norm_num), Phi_lt_one 4, hr, hs, by linarith⟩

theorem t3_tail : tCdf 3 5 ≤ 998 / 1000 := by
  have h := isCdf_t (ν := 3) (by norm_num)
  have lo : ∀ t ∈ Set.Ioc (5 : ℝ) 6, 2 / 1000 ≤ tPdf 3 t := by
    rintro t ⟨h5, h6⟩
    have g2 : Real.Gamma ((3 + 1) / 2) = 1 := by norm_num
    have g3 : Real.Gamma (3 / 2) = √Real.pi / 2 := by
      rw [show (3 / 2 : ℝ) = 1 / 2 + 1 by norm_num, Real.Gamma_add_one (by norm_num), Real.Gamma_one_half_eq]; ring
    have hs : √(3 * Real.pi) * (√Real.pi / 2) = √3 * Real.pi / 2 := by
      rw [Real.sqrt_mul (by norm_num), mul_assoc, mul_div_assoc', Real.mul_self_sqrt Real.pi_pos.le]; ring
    have h3 : √3 ≤ 174 / 100 := Real.sqrt_le_iff.2 ⟨by norm_num, by norm_num⟩
    have h30 : 0 < √3 := by positivity
    have hpi := Real.pi_lt_d2
    have hpi0 := Real.pi_pos
    have hc : √3 * Real.pi / 2 ≤ 275 / 100 := by norm_num at hpi; nlinarith
    have hq : (1 + t ^ 2 / 3) ^ (-((3 + 1) / 2 : ℝ)) = ((1 + t ^ 2 / 3) ^ 2)⁻¹ := by
      rw [show (-((3 + 1) / 2) : ℝ) = -((2 : ℕ) : ℝ) by norm_num, Real.rpow_neg (by positivity), Real.rpow_natCast]
    have hu : (1 + t ^ 2 / 3) ^ 2 ≤ 169 := by
      have : 1 + t ^ 2 / 3 ≤ 13 := by nlinarith
      have h0 : 0 ≤ 1 + t ^ 2 / 3 := by positivity
      nlinarith
    rw [tPdf, g2, g3, hs, hq, ← div_eq_mul_inv, div_div, le_div_iff₀ (by positivity)]
    have h0 : 0 ≤ (1 + t ^ 2 / 3) ^ 2 := by positivity
    nlinarith
  have hi : IntegrableOn (fun _ : ℝ => (2 / 1000 : ℝ)) (Set.Ioc 5 6) := integrableOn_const (by simp)
  have h1 : 2 / 1000 ≤ ∫ t in Set.Ioc (5 : ℝ) 6, tPdf 3 t := by
    have := setIntegral_mono_on hi h.integrable.integrableOn measurableSet_Ioc lo
    norm_num at this ⊢
    exact this
  have h2 : (∫ t in Set.Iic (6 : ℝ), tPdf 3 t) = (∫ t in Set.Iic (5 : ℝ), tPdf 3 t) + ∫ t in Set.Ioc (5 : ℝ) 6, tPdf 3 t := by
    rw [← setIntegral_union (Set.Iic_disjoint_Ioc le_rfl) measurableSet_Ioc h.integrable.integrableOn
      h.integrable.integrableOn, Set.Iic_union_Ioc_eq_Iic (by norm_num)]
  rw [h.running, h.running] at h2
  have h3 : tCdf 3 6 ≤ 1 := h.le_one 6
  linarith

/-- The point `qt` returns for the probability `Φ(4) > 0.9996` has probability below 0.998. -/
theorem C42_qt_far_violated : ∃ u r : ℝ, 9996 / 10000 < u ∧ u < 1 ∧ qt (fin u) (fin 3) = fin r ∧
    (∫ t in Set.Iic r, tPdf 3 t) ≤ 998 / 1000 := by
  obtain ⟨s, hs, -, h5⟩ := qt_at4
  refine ⟨_, s, ?_, Phi_lt_one 4, hs, ?_⟩
  · have h1 := Lim.Phi_tail (z := 4) (by norm_num)
    rw [Phi_neg] at h1
    have h2 : Real.exp (-(4 ^ 2) / 2) ≤ ((27 / 10 : ℝ) ^ 8)⁻¹ := by
      rw [show (-(4 ^ 2) / 2 : ℝ) = -(((8 : ℕ) : ℝ) * 1) by norm_num, Real.exp_neg, Real.exp_nat_mul]
      have := Real.exp_one_gt_d9
      exact inv_anti₀ (by norm_num) (pow_le_pow_left₀ (by norm_num) (by linarith) 8)
    norm_num at h1 h2 ⊢
    linarith
  · rw [(isCdf_t (by norm_num)).running]
    exact ((isCdf_t (ν := 3) (by norm_num)).mono h5.le).trans t3_tail

end Stats

namespace Stats.ExamplesC42
open Fl Spec
open scoped Stats.Exact

example : ∃ r, qt (fin (Phi 4)) (fin 3) = fin r ∧ 0 < r ∧ r < 5 := qt_at4

end Stats.ExamplesC42

import Verif.Props.C04F
import Verif.Lemmas.RealCdf
import Mathlib.Analysis.Real.Pi.Bounds
import Mathlib.Analysis.Complex.ExponentialBounds
import Mathlib.Analysis.Calculus.MeanValue

/-!
# C49: standardising overflows in binary64

`(x - mu) / sigma` is computed by subtracting first. For `x = B`, `mu = -B`, `sigma = B` with `B` in the top binade the difference overflows, although the
standardised argument is 2.
-/

open Classical
namespace Stats.ExamplesC49L
open Fl Spec DoubleArith ExamplesC04

set_option warn.classDefReducibility false in
attribute [local instance] doubleLib

theorem r_one : ofE (Double.R 1) = fin 1 := by
  rw [show Double.R 1 = ((1 : ℝ) : EReal) by exact_mod_cast (show Double.R ((1 : ℤ) : ℝ) = (((1 : ℤ) : ℝ) : EReal) from doubleRounding.int 1 (by norm_num)), ofE_coe]

theorem r_two : ofE (Double.R 2) = fin 2 := by
  rw [show Double.R 2 = ((2 : ℝ) : EReal) by exact_mod_cast (show Double.R ((2 : ℤ) : ℝ) = (((2 : ℤ) : ℝ) : EReal) from doubleRounding.int 2 (by norm_num)), ofE_coe]

theorem r_half : ofE (Double.R (1 / 2)) = fin (1 / 2) := by
  have := Double.R_pow (e := 1) (by norm_num)
  rw [show (1 / 2 : ℝ) = 1 / 2 ^ 1 by norm_num, this, ofE_coe]

theorem two_sd {B : ℝ} (h : 0 < B) : (B - -B) / B = 2 := by field_simp; ring

/-- `Phi 2` is well below 1. -/
theorem Phi_two_le : Phi 2 ≤ 1 - 1 / 200 := by
  have hs : √2 < 3 / 2 := by rw [Real.sqrt_lt' (by norm_num)]; norm_num
  have hs0 : 0 < √2 := by positivity
  have key : 1 / 100 ≤ 1 - Spec.erf (2 / √2) := by
    have e : 2 / √2 = √2 := by rw [div_eq_iff hs0.ne']; exact (Real.mul_self_sqrt (by norm_num)).symm
    rw [e]
    have hc := (convex_Icc (3 / 2 : ℝ) 2).mul_sub_le_image_sub_of_le_deriv (f := Spec.erf) (C := 2 / 100)
      (fun x _ => (hasDerivAt_erf x).continuousAt.continuousWithinAt) (fun x _ => (hasDerivAt_erf x).differentiableAt.differentiableWithinAt)
      (by
        intro x hx
        rw [interior_Icc] at hx
        rw [(hasDerivAt_erf x).deriv]
        have a : Real.exp (-4) ≤ Real.exp (-x ^ 2) := Real.exp_le_exp.2 (by nlinarith [hx.1, hx.2])
        have b : (0.0183 : ℝ) ≤ Real.exp (-4) := by
          have e1 := Real.exp_neg_one_gt_d9
          have e2 : Real.exp (-4) = Real.exp (-1) ^ 4 := by rw [← Real.exp_nat_mul]; norm_num
          rw [e2]
          exact le_trans (by norm_num) (pow_le_pow_left₀ (by norm_num) e1.le 4)
        have c : (1.1 : ℝ) ≤ 2 / √Real.pi := by
          rw [le_div_iff₀ (by positivity)]
          have : √Real.pi ≤ 1.8 := Real.sqrt_le_iff.2 ⟨by norm_num, by have := Real.pi_lt_d2; norm_num at *; linarith⟩
          linarith
        calc (2 / 100 : ℝ) ≤ 1.1 * 0.0183 := by norm_num
          _ ≤ _ := mul_le_mul c (b.trans a) (by norm_num) (by positivity)) (3 / 2) (by norm_num) 2 (by norm_num) (by norm_num)
    have h1 := erf_lt_one 2
    have h2 := strictMono_erf hs
    linarith
  rw [Phi]
  linarith

/-- `pnorm(B, -B, B)` is 1; the distribution function is `Phi 2`, at most 0.995. -/
theorem C49_pnorm_overflow_violated {B : ℝ} (hB : Omega ≤ 2 * B) :
    pnorm (fin B) (fin (-B)) (fin B) false = fin 1 ∧ IsCdf (fun x => Phi ((x - -B) / B)) (normPdf (-B) B) ∧ Phi ((B - -B) / B) ≤ 1 - 1 / 200 := by
  have h := big_pos hB
  refine ⟨?_, isCdf_norm _ h, by rw [two_sd h]; exact Phi_two_le⟩
  have e1 : (pinf : Fl) / fin B = pinf := by rw [pinf_div_fin, if_pos h.le]
  have e2 : (pinf : Fl) / SQRT2 = pinf := by
    show (pinf : Fl) / fin Lib.sqrt2 = pinf
    rw [pinf_div_fin, if_pos Lib.sqrt2_pos.le]
  have e3 : half * (1 + erf pinf) = fin 1 := by
    show fin (1 / 2) * (1 + fin 1) = fin 1
    rw [one_eq, dadd, one_add_one_eq_two, r_two, dmul, one_div, inv_mul_cancel₀ two_ne_zero, r_one]
  rw [pnorm, if_neg (by simp [norm_ok', norm_ok, h.le]), if_neg (by simp [h.ne']), sub_overflow hB, e1, pnorm_compute, e2, e3]
  rfl

/-- `plaplace(B, -B, B)` is 1; the distribution function is `1 - exp(-2)/2`, less than 0.95. -/
theorem C49_plaplace_overflow_violated {B : ℝ} (hB : Omega ≤ 2 * B) :
    plaplace (fin B) (fin (-B)) (fin B) false = fin 1 ∧ IsCdf (laplaceCdf (-B) B) (laplacePdf (-B) B) ∧ laplaceCdf (-B) B B < 95 / 100 := by
  have h := big_pos hB
  refine ⟨?_, isCdf_laplace _ h, ?_⟩
  · have e1 : -abs pinf / fin B = ninf := by
      show (ninf : Fl) / fin B = ninf
      rw [ninf_div_fin, if_pos h.le]
    have z : ofE (Double.R 0) = fin 0 := by rw [show Double.R 0 = ((0 : ℝ) : EReal) from doubleRounding.zero, ofE_coe]
    have e2 : half + half * sgn pinf * (1 - exp ninf) = fin 1 := by
      show fin (1 / 2) + fin (1 / 2) * fin 1 * (1 - fin 0) = fin 1
      rw [one_eq, dsub, sub_zero, r_one, dmul, mul_one, r_half, dmul, mul_one, r_half, dadd, add_halves, r_one]
    rw [plaplace, if_neg (by simp [laplace_ok', laplace_ok, h.le]), if_neg (by simp [h.ne']), sub_overflow hB, plaplace_compute, e1, e2]
    rfl
  · rw [laplaceCdf, if_neg (by linarith), two_sd h]
    have : (1 / 9 : ℝ) < Real.exp (-2) := by
      rw [show (-2 : ℝ) = -1 + -1 by norm_num, Real.exp_add]
      have := Real.exp_neg_one_gt_d9
      nlinarith
    linarith

/-- `dunif(0, -B, B)` is 0 and its logarithm `-inf`; the density is `1/(2B)`. -/
theorem C49_dunif_overflow_violated {B : ℝ} (hB : Omega ≤ 2 * B) :
    dunif (fin 0) (fin (-B)) (fin B) false = fin 0 ∧ dunif (fin 0) (fin (-B)) (fin B) true = ninf ∧ unifPdf (-B) B 0 = 1 / (2 * B) := by
  have h := big_pos hB
  have hd (b : Bool) : dunif (fin 0) (fin (-B)) (fin B) b = dunif_log_check (fin (-B)) (fin B) b := by
    rw [dunif, if_neg (by simp [unif_ok', unif_ok]; linarith), if_neg (by simp), if_neg (by simp [h.le])]
  refine ⟨?_, ?_, ?_⟩
  · rw [hd, dunif_log_check, sub_overflow hB]; rfl
  · rw [hd, dunif_log_check, sub_overflow hB]; rfl
  · rw [unifPdf, if_pos ⟨by linarith, h.le⟩]; ring_nf

/-- `dlaplace(mu, mu, B)` is 0 and its logarithm `-inf`; the density is `1/(2B)`. -/
theorem C49_dlaplace_overflow_violated {B : ℝ} (hB : Omega ≤ 2 * B) :
    dlaplace (fin 0) (fin 0) (fin B) false = fin 0 ∧ dlaplace (fin 0) (fin 0) (fin B) true = ninf ∧ laplacePdf 0 B 0 = 1 / (2 * B) := by
  have h := big_pos hB
  have z : ofE (Double.R 0) = fin 0 := by rw [show Double.R 0 = ((0 : ℝ) : EReal) from doubleRounding.zero, ofE_coe]
  have e : dlaplace_log_compute (fin 0) (fin 0) (fin B) = ninf := by
    have e1 : (2 : Fl) * fin B = pinf := by rw [ofNat_eq 2, dmul, R_big hB]; rfl
    have e2 : abs (fin 0 - fin 0) / fin B = fin 0 := by
      rw [dsub, sub_self, z]
      show fin |0| / fin B = fin 0
      rw [abs_zero, ddiv _ h.ne', zero_div, z]
    rw [dlaplace_log_compute, e1, e2]; rfl
  have hd (b : Bool) : dlaplace (fin 0) (fin 0) (fin B) b = exp_if ninf (!b) := by
    rw [dlaplace, if_neg (by simp [laplace_ok', laplace_ok, h.le]), if_neg (by simp [h.ne']), e]
  refine ⟨by rw [hd]; rfl, by rw [hd]; rfl, by simp [laplacePdf]⟩

example : pnorm (fin (2 ^ 1023)) (fin (-2 ^ 1023)) (fin (2 ^ 1023)) false = fin 1 := (C49_pnorm_overflow_violated top_binade).1

end Stats.ExamplesC49L

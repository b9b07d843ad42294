import Verif.Props.C49C
import Verif.Lemmas.RealCdf2
import Mathlib.Analysis.Real.Pi.Bounds
import Mathlib.Analysis.Complex.ExponentialBounds

/-!
# C49: densities lost because a square overflows, in binary64

`dcauchy` and `dt` square the standardised argument before they divide by it or take its logarithm. Beyond `2^512` the square is infinite, and
the density 0 with logarithm minus infinity, although the density is an ordinary double.
-/

set_option exponentiation.threshold 3000
open Classical
namespace Stats.ExamplesC49
open Fl Spec DoubleArith

set_option warn.classDefReducibility false in
attribute [local instance] doubleLib

/-- `dcauchy(2^20, 0, 2^-500)` is 0 and its logarithm `-inf`; the density is more than `2^-543`. -/
theorem C49_dcauchy_double_violated :
    dcauchy (fin (2 ^ 20)) (fin 0) (fin (1 / 2 ^ 500)) false = fin 0 ∧ dcauchy (fin (2 ^ 20)) (fin 0) (fin (1 / 2 ^ 500)) true = ninf ∧
    1 / 2 ^ 543 < cauchyPdf 0 (1 / 2 ^ 500) (2 ^ 20) := by
  have p1 := Real.pi_gt_three
  have p2 := Real.pi_lt_four
  have e1 : fin (2 ^ 20) - fin 0 = fin (2 ^ 20) := by
    have := Double.R_near (x := 2 ^ 20) 20 (2 ^ 52) (by norm_num) (by norm_num) (by norm_num) (by norm_num) (by norm_num)
    rw [dsub, sub_zero, this, ofE_coe]; norm_num
  have e2 : fin (2 ^ 20) / fin (1 / 2 ^ 500) = fin (2 ^ 520) := by
    have := Double.R_near (x := 2 ^ 520) 520 (2 ^ 52) (by norm_num) (by norm_num) (by norm_num) (by norm_num) (by norm_num)
    rw [ddiv _ (by norm_num), show (2 ^ 20 / (1 / 2 ^ 500) : ℝ) = 2 ^ 520 by norm_num, this, ofE_coe]; norm_num
  have e3 : fin (2 ^ 520) * fin (2 ^ 520) = pinf := by
    rw [dmul, Double.R_big, ofE_top]
    rw [← pow_add]; exact pow_le_pow_right₀ (by norm_num) (by norm_num)
  have pi3 : (3 : ℝ) ≤ Lib.pi ∧ Lib.pi ≤ 4 := by
    obtain ⟨y, e, a, b⟩ := R_between (x := Real.pi) 3 4 (by norm_num) (by norm_num) (by push_cast; linarith) (by push_cast; linarith)
    have : Lib.pi = y := by
      show (Double.R Real.pi).toReal = y
      generalize Double.R Real.pi = z at e
      induction z using EReal.rec with
      | bot => simp at e
      | top => simp at e
      | coe r => rw [ofE_coe] at e; rw [EReal.toReal_coe]; exact Fl.fin.inj e
    rw [this]; push_cast at a b; exact ⟨a, b⟩
  obtain ⟨w, ew, w0⟩ : ∃ w : ℝ, fin (1 / 2 ^ 500) * PI = fin w ∧ 0 < w := by
    show ∃ w : ℝ, fin (1 / 2 ^ 500) * fin Lib.pi = fin w ∧ 0 < w
    rw [dmul]
    have l : (1 / 2 ^ 500 : ℝ) ≤ 1 / 2 ^ 500 * Lib.pi := by nlinarith [show (0 : ℝ) < 1 / 2 ^ 500 by positivity]
    have u : 1 / 2 ^ 500 * Lib.pi ≤ 4 := by nlinarith [show (1 / 2 ^ 500 : ℝ) ≤ 1 by norm_num]
    have a := Double.R_mono l
    have b := Double.R_mono u
    rw [Double.R_pow 500 (by norm_num)] at a
    have r4 := R_int 4 (by norm_num)
    push_cast at r4
    rw [r4] at b
    generalize Double.R (1 / 2 ^ 500 * Lib.pi) = z at a b
    induction z using EReal.rec with
    | bot => exact absurd a (by simp)
    | top => exact absurd b (not_le.2 (EReal.coe_lt_top _))
    | coe r => exact ⟨r, by rw [ofE_coe], lt_of_lt_of_le (by positivity) (EReal.coe_le_coe_iff.1 a)⟩
  have hv : ∀ f, dcauchy (fin (2 ^ 20)) (fin 0) (fin (1 / 2 ^ 500)) f = log_if (fin 0) f := fun f => by
    have : dcauchy (fin (2 ^ 20)) (fin 0) (fin (1 / 2 ^ 500)) f =
        log_if (dcauchy_compute ((fin (2 ^ 20) - fin 0) / fin (1 / 2 ^ 500)) (fin (1 / 2 ^ 500))) f := by
      have n : ¬ (1 / 2 ^ 500 : ℝ) < 0 := by norm_num
      simp only [dcauchy]
      rw [if_neg (by simp [cauchy_ok', cauchy_ok]), if_neg (by simp)]
    rw [this, e1, e2, dcauchy_compute, e3, ew, one_eq, fin_add_pinf, fin_mul_pinf, if_neg w0.ne', if_pos w0, fin_div_pinf]
  refine ⟨by rw [hv]; rfl, by rw [hv]; simp [log_if, log_fin], ?_⟩
  rw [cauchyPdf, sub_zero]
  refine one_div_lt_one_div_of_lt (by positivity) ?_
  calc Real.pi * (1 / 2 ^ 500) * (1 + (2 ^ 20 / (1 / 2 ^ 500)) ^ 2) < 4 * (1 / 2 ^ 500) * (1 + (2 ^ 20 / (1 / 2 ^ 500)) ^ 2) := by gcongr
    _ ≤ 2 ^ 543 := by norm_num

/-- `dt(x, 1)` is 0 and its logarithm `-inf` from `2^512` on; at `2^512` the density is more than `2^-1027`, a double. -/
theorem C49_dt_double_violated :
    (∀ x : ℝ, 2 ^ 512 ≤ |x| → Double.R x = (x : EReal) → dt (fin x) (fin 1) false = fin 0 ∧ dt (fin x) (fin 1) true = ninf) ∧
    1 / 2 ^ 1027 < tPdf 1 (2 ^ 512) := by
  have p1 := Real.pi_gt_three
  have p2 := Real.pi_lt_four
  constructor
  · intro x hx rx
    have lp : (1 : ℝ) ≤ Real.log Real.pi ∧ Real.log Real.pi ≤ 2 := by
      constructor
      · rw [Real.le_log_iff_exp_le (by linarith)]
        linarith [Real.exp_one_lt_d9]
      · rw [Real.log_le_iff_le_exp (by linarith)]
        have h := Real.exp_one_gt_d9
        rw [show (2 : ℝ) = 1 + 1 by norm_num, Real.exp_add]
        nlinarith
    have r2 : ofE (Double.R (1 / 2)) = fin (1 / 2) := by
      rw [show Double.R (1 / 2) = ((1 / 2 : ℝ) : EReal) from rep_oh, ofE_coe]
    have r1 : ofE (Double.R 1) = fin 1 := by rw [R_int1, ofE_coe]
    have h2 : fin 1 / (2 : Fl) = fin (1 / 2) := by
      rw [ofNat_eq 2, ddiv _ (by norm_num), show (1 / OfNat.ofNat 2 : ℝ) = 1 / 2 by norm_num, r2]
    have e3 : fin 1 / (2 : Fl) + half = fin 1 := by
      rw [h2, half_eq, dadd, show (1 / 2 + 1 / 2 : ℝ) = 1 by norm_num, r1]
    have cons : ∃ c : ℝ, dt_log_cons_term (fin 1) = fin c := by
      have l1 : lgamma (fin 1) = fin 0 := by
        show ofE (if (1 : ℝ) = 0 then ⊤ else Double.R (Real.log (Real.Gamma 1))) = _
        rw [if_neg one_ne_zero, Real.Gamma_one, Real.log_one, R_zero, ofE_coe]
      obtain ⟨a, ea, a0, a1⟩ : ∃ a : ℝ, LOGPI = fin a ∧ (1 : ℝ) ≤ a ∧ a ≤ 2 := by
        obtain ⟨y, e, h1, h2⟩ := R_between (x := Real.log Real.pi) 1 2 (by norm_num) (by norm_num) (by push_cast; exact lp.1) (by push_cast; exact lp.2)
        push_cast at h1 h2
        refine ⟨y, ?_, h1, h2⟩
        show fin (Double.R (Real.log Real.pi)).toReal = fin y
        generalize Double.R (Real.log Real.pi) = z at e
        induction z using EReal.rec with
        | bot => simp at e
        | top => simp at e
        | coe r => rw [ofE_coe] at e; rw [EReal.toReal_coe]; exact e
      have l0 : Fl.log (fin 1) = fin 0 := by
        show (if (1 : ℝ) < 0 then nan else if (1 : ℝ) = 0 then ninf else ofE (Double.R (Real.log 1))) = _
        rw [if_neg (by norm_num), if_neg one_ne_zero, Real.log_one, R_zero, ofE_coe]
      obtain ⟨g, eg, g0, g1⟩ : ∃ g : ℝ, lgamma (fin (1 / 2)) = fin g ∧ (0 : ℝ) ≤ g ∧ g ≤ 1 := by
        show ∃ g : ℝ, ofE (if (1 / 2 : ℝ) = 0 then ⊤ else Double.R (Real.log (Real.Gamma (1 / 2)))) = fin g ∧ _ ∧ _
        rw [if_neg (by norm_num), Real.Gamma_one_half_eq, Real.log_sqrt (by linarith)]
        obtain ⟨y, e, h1, h2⟩ := R_between (x := Real.log Real.pi / 2) 0 1 (by norm_num) (by norm_num) (by push_cast; linarith) (by push_cast; linarith)
        push_cast at h1 h2
        exact ⟨y, e, h1, h2⟩
      obtain ⟨b, eb, b0, b1⟩ := R_between (x := 0 + a) 1 2 (by norm_num) (by norm_num) (by push_cast; linarith) (by push_cast; linarith)
      push_cast at b0 b1
      obtain ⟨d, ed, d0, d1⟩ := R_between (x := 1 / 2 * b) 0 1 (by norm_num) (by norm_num) (by push_cast; linarith) (by push_cast; linarith)
      push_cast at d0 d1
      obtain ⟨m, em, m0, m1⟩ := R_between (x := 0 - d) (-1) 0 (by norm_num) (by norm_num) (by push_cast; linarith) (by push_cast; linarith)
      push_cast at m0 m1
      obtain ⟨k, ek, -, -⟩ := R_between (x := m - g) (-2) 0 (by norm_num) (by norm_num) (by push_cast; linarith) (by push_cast; linarith)
      refine ⟨k, ?_⟩
      rw [dt_log_cons_term, e3, h2, l1, l0, ea, eg, half_eq, dadd, eb, dmul, ed, dsub, em, dsub, ek]
    obtain ⟨c, hc⟩ := cons
    have hm : dt_log_mult_term (fin x) (fin 1) = ninf := by
      have e1 : fin x / fin 1 = fin x := by rw [ddiv _ one_ne_zero, div_one, rx, ofE_coe]
      have e2 : fin x * fin x = pinf := by
        rw [dmul, Double.R_big, ofE_top]
        rw [← abs_mul_abs_self x]
        calc (2 : ℝ) ^ 1024 = 2 ^ 512 * 2 ^ 512 := by rw [← pow_add]
          _ ≤ _ := mul_le_mul hx hx (by positivity) (abs_nonneg x)
      rw [dt_log_mult_term, e1, e2, e3, one_eq, fin_add_pinf]
      show fin (-1) * pinf = ninf
      rw [fin_mul_pinf, if_neg (by norm_num), if_neg (by norm_num)]
    have hl : dt_log_compute (fin x) (fin 1) = ninf := by rw [dt_log_compute, hc, hm]; rfl
    have hv : ∀ f, dt (fin x) (fin 1) f = exp_if ninf (!f) := fun f => by
      simp only [dt]
      rw [if_neg (by simp [t_ok', t_ok, eps, deps]; norm_num), if_neg (by simp), if_neg (by simp), hl]
    exact ⟨by rw [hv]; simp [exp_if], by rw [hv]; simp [exp_if]⟩
  · rw [tPdf_one, cauchyPdf, sub_zero, mul_one, div_one]
    refine one_div_lt_one_div_of_lt (by positivity) ?_
    calc Real.pi * (1 + (2 ^ 512) ^ 2) < 4 * (1 + (2 ^ 512) ^ 2) := by gcongr
      _ ≤ 2 ^ 1027 := by norm_num

end Stats.ExamplesC49

import Verif.Props.C33B
import Verif.Props.C04F

/-!
# C04 in binary64: the inverse Gaussian family with a large mean

`dinvgauss` squares both `x - mu` and `mu`. From a mean of about `2^512` on both squares overflow and the exponent is `-inf / inf`.
The generator subtracts two overflowed terms there.
-/

set_option exponentiation.threshold 2000
open Classical
namespace Stats.ExamplesC04
open Fl Spec DoubleArith

set_option warn.classDefReducibility false in
attribute [local instance] doubleLib

theorem big_two_pow (k : ℕ) (hk : 1024 ≤ k) {x : ℝ} (h : 2 ^ k ≤ x) : ofE (Double.R x) = pinf := by
  rw [Double.R_big ((pow_le_pow_right₀ (by norm_num) hk).trans h)]; rfl

/-- `dinvgauss(1, 2^600, 1)` is NaN. The density there is more than 1/10. -/
theorem C04_dinvgauss_double_violated (b : Bool) :
    dinvgauss (fin 1) (fin (2 ^ 600)) (fin 1) b = nan ∧ 1 / 10 < invgaussPdf (2 ^ 600) 1 1 := by
  constructor
  · obtain ⟨w, ew, w1, w2⟩ := Double.R_range (x := 2 ^ 600 - 1) (j := 599) (k := 600) (by norm_num) (by norm_num) (by norm_num) (by norm_num)
    have a1 : fin 1 - fin (2 ^ 600) = fin (-w) := by
      rw [dsub, ← neg_sub, Double.R_neg, ew, ← EReal.coe_neg, ofE_coe]
    have w3 : (2 : ℝ) ^ 1198 ≤ w * w := by
      rw [show (1198 : ℕ) = 599 + 599 by norm_num, pow_add]
      exact mul_le_mul w1 w1 (by positivity) (le_trans (by positivity) w1)
    have a2 : fin (-w) * fin (-w) = pinf := by
      rw [dmul, neg_mul_neg, big_two_pow 1198 (by norm_num) w3]
    have a3 : (2 : Fl) * fin (2 ^ 600) = fin (2 ^ 601) := by
      rw [ofNat_eq 2, dmul, show (OfNat.ofNat 2 : ℝ) = 2 from rfl, ← pow_succ', PoisDouble.R_two_pow 601 (by norm_num), ofE_coe]
    have a4 : fin (2 ^ 601) * fin (2 ^ 600) = pinf := by
      rw [dmul, ← pow_add, big_two_pow 1201 (by norm_num) le_rfl]
    have a5 : pinf * fin 1 = pinf := by simp [pinf_mul_fin]
    have a6 : -fin 1 * pinf = ninf := by rw [neg_fin, fin_mul_pinf, if_neg (by norm_num), if_neg (by norm_num)]
    have hc : dinvgauss_log_compute (fin 1) (fin (2 ^ 600)) (fin 1) = nan := by
      rw [dinvgauss_log_compute, dinvgauss_log_compute_term_2, a1, a2, a3, a4, a5, a6, ninf_div_pinf]
      cases dinvgauss_log_compute_term_1 (fin 1) (fin 1) <;> rfl
    rw [dinvgauss, if_neg (by simp [invgauss_ok', invgauss_ok]), if_neg (by simp), if_neg (by simp), hc]
    cases b <;> rfl
  · rw [invgaussPdf, if_pos one_pos]
    have h1 : (1 / 3 : ℝ) ≤ √(1 / (2 * Real.pi * 1 ^ 3)) := by
      refine Real.le_sqrt_of_sq_le ?_
      rw [le_div_iff₀ (by positivity)]
      linarith [Real.pi_lt_four]
    have h2 : (1 / 2 : ℝ) ≤ Real.exp (-(1 * (1 - 2 ^ 600) ^ 2) / (2 * (2 ^ 600) ^ 2 * 1)) := by
      have h3 : (-1 / 2 : ℝ) ≤ -(1 * (1 - 2 ^ 600) ^ 2) / (2 * (2 ^ 600) ^ 2 * 1) := by
        rw [le_div_iff₀ (by positivity)]
        have : (1 : ℝ) ≤ 2 ^ 600 := one_le_pow₀ (by norm_num)
        nlinarith
      linarith [Real.add_one_le_exp (-(1 * (1 - 2 ^ 600) ^ 2) / (2 * (2 ^ 600) ^ 2 * 1) : ℝ)]
    calc (1 / 10 : ℝ) < 1 / 3 * (1 / 2) := by norm_num
      _ ≤ _ := mul_le_mul h1 h2 (by norm_num) (Real.sqrt_nonneg _)

/-- `rinvgauss(2^600, 1)` is NaN for every normal variate between 1 and 1024 in absolute value, whatever the uniform variate is. -/
theorem C28_rinvgauss_double_nan {S : Type*} [Engine S] (s : S) (h1 : 1 ≤ |(Engine.norm s).1|) (h2 : |(Engine.norm s).1| ≤ 1024) :
    (rinvgauss (fin (2 ^ 600)) (fin 1) s).1 = nan := by
  obtain ⟨y, hy, ry, y1, y2⟩ := C33Double.square (s := s) (j := 0) (k := 10) (by norm_num) (by norm_num) (by simpa using h1) (by norm_num; exact h2)
  norm_num at y1 y2
  have y0 : 0 < y := by linarith
  have a1 : fin (2 ^ 600) * fin (2 ^ 600) = pinf := by
    rw [dmul, ← pow_add, big_two_pow 1200 (by norm_num) le_rfl]
  have a2 : pinf * fin y = pinf := by rw [pinf_mul_fin, if_neg y0.ne', if_pos y0]
  have a3 : ∃ r : ℝ, (4 : Fl) * fin (2 ^ 600) * fin 1 * fin y = fin r := by
    rw [ofNat_eq 4, dmul, show (OfNat.ofNat 4 : ℝ) = 2 ^ 2 by norm_num, ← pow_add, PoisDouble.R_two_pow _ (by norm_num), ofE_coe, dmul, mul_one,
      PoisDouble.R_two_pow _ (by norm_num), ofE_coe, dmul]
    obtain ⟨w, ew, -⟩ := Double.R_range (x := 2 ^ (2 + 600) * y) (j := 602) (k := 622) (by norm_num) (by norm_num)
      (le_mul_of_one_le_right (by positivity) y1)
      (by rw [show (622 : ℕ) = 2 + 600 + 20 by norm_num, pow_add _ (2 + 600) 20]; exact mul_le_mul_of_nonneg_left (by linarith) (by positivity))
    exact ⟨w, by rw [ew, ofE_coe]⟩
  obtain ⟨r, a3⟩ := a3
  have a4 : fin r + pinf = pinf := rfl
  have a5 : sqrt pinf = pinf := rfl
  have a6 : fin (2 ^ 600) * pinf = pinf := by rw [fin_mul_pinf, if_neg (by positivity), if_pos (by positivity)]
  have a7 : pinf - pinf = nan := rfl
  have a8 (w : Fl) : (nan : Fl) / w = nan := by cases w <;> rfl
  have a9 : fin (2 ^ 600) + nan = nan := rfl
  have a10 : pinf / nan = nan := rfl
  simp only [rinvgauss]
  rw [hy, a1, a2, a2, a3, a4, a5, a6, a7, a8, a9, a10, ite_self]

end Stats.ExamplesC04

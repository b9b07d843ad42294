import Verif.Props.C33B

/-!
# C15, C16 in binary64: the inverse Gaussian quantile with a large mean

The mode is computed as `mu * (sqrt(1 + 9/4 r^2) - 3/2 r)` with `r = mu/lambda`. For large `r` the difference is 0 and the Newton iteration starts at 0,
where the density is 0. The first step leads to infinity, the second to NaN. So `qinvgauss(p, mu, 1)` is NaN at every double `p` in between.
-/

set_option linter.unusedSectionVars false
set_option exponentiation.threshold 2000
open Classical
namespace Stats
open Fl Spec

namespace C15Double
open Double DoubleArith
set_option warn.classDefReducibility false in
attribute [local instance] doubleLib

theorem r0 : ofE (R 0) = fin 0 := by rw [show R 0 = ((0 : ℝ) : EReal) from doubleRounding.zero, ofE_coe]

theorem R_small_int (n : ℤ) (h : |n| ≤ 2 ^ 19) : R (n : ℝ) = ((n : ℝ) : EReal) := doubleRounding.int n h

theorem scale {x : ℝ} (h1 : 1 ≤ x) (h2 : x ≤ 2 ^ 500) (h : R x = (x : EReal)) (k : ℕ) (hk : k ≤ 500) : ofE (R (2 ^ k * x)) = fin (2 ^ k * x) := by
  rw [R_scale h1 h2 h k hk, ofE_coe]

/-- The computed mode is 0. -/
theorem mode_zero {m : ℕ} (h1 : 29 ≤ m) (h2 : m ≤ 249) : invgauss_mode (fin (2 ^ (m + 1))) (fin (2 ^ (m + 1)) / fin 1) = fin 0 := by
  have r9 : R 9 = ((9 : ℝ) : EReal) := by exact_mod_cast R_small_int 9 (by norm_num)
  have r3 : R 3 = ((3 : ℝ) : EReal) := by exact_mod_cast R_small_int 3 (by norm_num)
  have b9 : (9 : ℝ) ≤ 2 ^ 500 := by norm_num
  have b3 : (3 : ℝ) ≤ 2 ^ 500 := by norm_num
  have a0 : fin (2 ^ (m + 1)) / fin 1 = fin (2 ^ (m + 1)) := by
    rw [ddiv _ one_ne_zero, div_one, PoisDouble.R_two_pow _ (by omega), ofE_coe]
  have a1 : (9 : Fl) * fin (2 ^ (m + 1)) = fin (2 ^ (m + 1) * 9) := by
    rw [ofNat_eq 9, dmul, mul_comm]; exact scale (by norm_num) b9 r9 _ (by omega)
  have a2 : fin (2 ^ (m + 1) * 9) * fin (2 ^ (m + 1)) = fin (2 ^ (m + 1 + (m + 1)) * 9) := by
    rw [dmul, show (2 : ℝ) ^ (m + 1) * 9 * 2 ^ (m + 1) = 2 ^ (m + 1 + (m + 1)) * 9 by rw [pow_add 2 (m + 1) (m + 1)]; ring]
    exact scale (by norm_num) b9 r9 _ (by omega)
  have a3 : fin (2 ^ (m + 1 + (m + 1)) * 9) / 4 = fin (2 ^ (m + m) * 9) := by
    rw [ofNat_eq 4, ddiv _ (by norm_num), show (2 ^ (m + 1 + (m + 1)) * 9 / OfNat.ofNat 4 : ℝ) = 2 ^ (m + m) * 9 by
      rw [show m + 1 + (m + 1) = m + m + 2 by ring, pow_add 2 (m + m) 2]; show (2 ^ (m + m) * 2 ^ 2 * 9 / 4 : ℝ) = _; ring]
    exact scale (by norm_num) b9 r9 _ (by omega)
  have a4 : (1 : Fl) + fin (2 ^ (m + m) * 9) = fin (2 ^ (m + m) * 9) := by
    have p := pow_pos (show (0 : ℝ) < 2 by norm_num) (m + m)
    have hp : (2 : ℝ) ^ 58 ≤ 2 ^ (m + m) := pow_le_pow_right₀ (by norm_num) (by omega)
    have e0 : 0 < 1 / (2 : ℝ) ^ (m + m) := by positivity
    have e1 : 1 / (2 : ℝ) ^ (m + m) ≤ 1 / 2 ^ 58 := one_div_le_one_div_of_le (by positivity) hp
    have hr : R (9 + 1 / 2 ^ (m + m)) = ((9 : ℝ) : EReal) := by
      generalize 1 / (2 : ℝ) ^ (m + m) = e at e0 e1
      norm_num at e1
      rw [R_near 3 (9 * 2 ^ 49) (by norm_num; linarith) (by norm_num; linarith) (by norm_num) (by norm_num)
        (by norm_num; rw [abs_lt]; constructor <;> linarith)]
      norm_num
    rw [one_eq, dadd, show (1 + 2 ^ (m + m) * 9 : ℝ) = 2 ^ (m + m) * (9 + 1 / 2 ^ (m + m)) by field_simp; ring,
      R_scale (by linarith) (by
        have : (1 : ℝ) / 2 ^ 58 ≤ 1 := by norm_num
        have : (10 : ℝ) ≤ 2 ^ 500 := by norm_num
        linarith) hr _ (by omega), ofE_coe]
  have a5 : sqrt (fin (2 ^ (m + m) * 9)) = fin (2 ^ m * 3) := by
    show (if (2 : ℝ) ^ (m + m) * 9 < 0 then nan else ofE (R √(2 ^ (m + m) * 9))) = _
    have e : √(2 ^ (m + m) * 9 : ℝ) = 2 ^ m * 3 := by
      rw [show (2 ^ (m + m) * 9 : ℝ) = (2 ^ m * 3) * (2 ^ m * 3) by rw [pow_add]; ring, Real.sqrt_mul_self (by positivity)]
    rw [if_neg (not_lt.2 (by positivity)), e]
    exact scale (by norm_num) b3 r3 _ (by omega)
  have a6 : (3 : Fl) * fin (2 ^ (m + 1)) / 2 = fin (2 ^ m * 3) := by
    rw [ofNat_eq 3, dmul, mul_comm (OfNat.ofNat 3 : ℝ)]
    rw [show (OfNat.ofNat 3 : ℝ) = 3 from rfl, scale (by norm_num) b3 r3 _ (by omega), ofNat_eq 2, ddiv _ (by norm_num),
      show (2 ^ (m + 1) * 3 / OfNat.ofNat 2 : ℝ) = 2 ^ m * 3 by rw [pow_succ]; show (2 ^ m * 2 * 3 / 2 : ℝ) = _; ring]
    exact scale (by norm_num) b3 r3 _ (by omega)
  rw [invgauss_mode, a0, a1, a2, a3, a4, a5, a6, dsub, sub_self, r0, dmul, mul_zero, r0]

/-- NaN stays. -/
theorem iter_nan (p mu lambda : Fl) (n : ℕ) : qinvgauss_compute_iter p mu lambda n nan = nan := by
  induction n with
  | zero => rfl
  | succ n ih =>
    have h1 : pinvgauss nan mu lambda false = nan := by rw [pinvgauss, if_pos (by simp [invgauss_ok'])]
    have h2 : p - nan = nan := by cases p <;> rfl
    rw [qinvgauss_compute_iter, h1, h2]
    rw [if_neg (by show ¬ ((nan : Fl) < _); simp)]
    exact ih

/-- C15 and C16 fail in binary64: with mean `2^(m+1)` (from `2^30` on) and `lambda = 1` the quantile is NaN at every double between
`2^-1000` and `1 - 2^-53`, the last double before 1. At 0 and 1 it is 0 and infinity. -/
theorem C15_qinvgauss_double_violated {m : ℕ} (h1 : 29 ≤ m) (h2 : m ≤ 249) {p : ℝ} (hp : R p = (p : EReal)) (p0 : 1 / 2 ^ 1000 ≤ p)
    (p1 : p ≤ 1 - 1 / 2 ^ 53) :
    qinvgauss (fin p) (fin (2 ^ (m + 1))) (fin 1) = nan := by
  have pp : 0 < p := lt_of_lt_of_le (by positivity) p0
  have p1' : p < 1 := by have : (0 : ℝ) < 1 / 2 ^ 53 := by positivity
                         linarith
  have mu0 : (0 : ℝ) < 2 ^ (m + 1) := by positivity
  have mp : Lib.minpos = 1 / 2 ^ 1022 := rfl
  have s1 : pinvgauss (fin 0) (fin (2 ^ (m + 1))) (fin 1) false = fin 0 := by
    rw [pinvgauss, if_neg (by simp [invgauss_ok', invgauss_ok]), if_neg (by simp), if_pos (by simp), pinvgauss_limit_vals,
      if_neg (by simp), if_neg (by simp), if_neg (by simp), if_neg (by simp), if_neg (by simp), zero_eq]
    rfl
  have s2 : dinvgauss (fin 0) (fin (2 ^ (m + 1))) (fin 1) false = fin 0 := by
    rw [dinvgauss, if_neg (by simp [invgauss_ok', invgauss_ok]), if_neg (by simp), if_pos (by simp), dinvgauss_limit_vals,
      if_neg (by simp), if_pos (by simp), zero_eq]
    rfl
  have s3 : pinvgauss pinf (fin (2 ^ (m + 1))) (fin 1) false = fin 1 := by
    rw [pinvgauss, if_neg (by simp [invgauss_ok', invgauss_ok]), if_neg (by simp), if_pos (by simp), pinvgauss_limit_vals,
      if_neg (by simp), if_pos (by simp), one_eq]
    rfl
  have s4 : dinvgauss pinf (fin (2 ^ (m + 1))) (fin 1) false = fin 0 := by
    rw [dinvgauss, if_neg (by simp [invgauss_ok', invgauss_ok]), if_neg (by simp), if_pos (by simp), dinvgauss_limit_vals,
      if_neg (by simp), if_neg (by simp), if_neg (by simp), if_pos (by simp), zero_eq]
    rfl
  have d1 : fin p - fin 0 = fin p := by rw [dsub, sub_zero, hp, ofE_coe]
  have d2 : ¬ abs (fin p) < minpos := by
    show ¬ fin |p| < fin Lib.minpos
    rw [abs_of_pos pp, fin_lt_fin, mp, not_lt]
    refine le_trans ?_ p0
    exact one_div_le_one_div_of_le (by positivity) (pow_le_pow_right₀ (by norm_num) (by norm_num))
  have d3 : fin p / fin 0 = pinf := by rw [fin_div_fin, if_pos rfl, if_neg pp.ne', if_pos pp]
  have d4 : fin 0 + pinf = pinf := rfl
  obtain ⟨w, ew, w1⟩ : ∃ w : ℝ, fin p - fin 1 = fin w ∧ 1 / 2 ^ 53 ≤ -w := by
    have a := R_mono (show (1 / 2 ^ 53 : ℝ) ≤ 1 - p by linarith)
    have b := R_mono (show 1 - p ≤ (2 : ℝ) ^ 0 by rw [pow_zero]; linarith)
    rw [R_pow (e := 53) (by norm_num)] at a
    rw [PoisDouble.R_two_pow 0 (by norm_num)] at b
    rw [dsub, ← neg_sub, R_neg]
    generalize R (1 - p) = z at a b
    induction z using EReal.rec with
    | bot => exact absurd a (not_le.2 (EReal.bot_lt_coe _))
    | top => exact absurd b (not_le.2 (EReal.coe_lt_top _))
    | coe r => exact ⟨-r, by rw [← EReal.coe_neg, ofE_coe], by rw [neg_neg]; exact EReal.coe_le_coe_iff.1 a⟩
  have w0 : w < 0 := by have : (0 : ℝ) < 1 / 2 ^ 53 := by positivity
                        linarith
  have d5 : ¬ abs (fin w) < minpos := by
    show ¬ fin |w| < fin Lib.minpos
    rw [abs_of_neg w0, fin_lt_fin, mp, not_lt]
    refine le_trans ?_ w1
    exact one_div_le_one_div_of_le (by positivity) (pow_le_pow_right₀ (by norm_num) (by norm_num))
  have d6 : fin w / fin 0 = ninf := by rw [fin_div_fin, if_pos rfl, if_neg w0.ne, if_neg (by linarith)]
  have d7 : pinf + ninf = nan := rfl
  rw [qinvgauss, if_neg (by simp [invgauss_ok]), if_neg (by simp [prob_val_ok, pp.le, p1'.le]), if_neg (by simp), if_neg (by simp),
    if_neg (by simp), if_neg (by simp [p1'.ne]), if_neg (by simp [pp.ne']), qinvgauss_compute, mode_zero h1 h2, QINVGAUSS_MAX_ITER,
    qinvgauss_compute_iter, s1, d1]
  rw [if_neg d2, s2, d3, d4, qinvgauss_compute_iter, s3, ew]
  rw [if_neg d5, s4, d6, d7, iter_nan]

/-- the median for mean `2^30` -/
example : qinvgauss (fin (1 / 2)) (fin (2 ^ 30)) (fin 1) = nan := by
  refine C15_qinvgauss_double_violated (m := 29) (by norm_num) (by norm_num) ?_ (by norm_num) (by norm_num)
  have := R_pow (e := 1) (by norm_num)
  norm_num at this ⊢; exact this

end C15Double
end Stats

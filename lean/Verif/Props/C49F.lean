import Verif.Props.C49C
import Verif.Props.C09
import Verif.Props.C10
import Verif.Lemmas.Mills
import Verif.Lemmas.RoundInst
import Mathlib.Analysis.Complex.ExponentialBounds

/-!
# C49, C09 and C10 in binary64: `pinvgauss`, `pbinom`, `ppois`

IEEE 754 double precision with correctly rounded library functions.

`pinvgauss` adds two terms; the second is `exp(2 lambda/mu)` times a normal probability computed as `(1 + erf)/2`, which
is 0 or a multiple of `2^-54`. At the mean the term is lost as soon as `lambda/mu` reaches 25, and for arguments where the
probability is rounded up the sum exceeds 1. `pbinom` and `ppois` add rounded terms and can also exceed 1.
-/

open Classical
namespace Stats.ExamplesC49
open Fl Spec DoubleArith

set_option warn.classDefReducibility false in
attribute [local instance] doubleLib

/-! ### rounding errors in the normal range -/

theorem R_rel {x : ℝ} (h1 : (2 : ℝ) ^ (-1022 : ℤ) ≤ |x|) (h2 : |x| ≤ 2 ^ 1023) :
    ∃ y : ℝ, Double.R x = (y : EReal) ∧ |y - x| ≤ |x| / 2 ^ 53 :=
  ⟨_, Wide.R_double h1 h2, Wide.R_err x⟩

/-- the form used below: a positive number between `2^-100` and `2^1000` -/
theorem R_pos {x : ℝ} (h1 : 1 / 2 ^ 100 ≤ x) (h2 : x ≤ 2 ^ 1000) :
    ∃ y : ℝ, Double.R x = (y : EReal) ∧ x * (1 - 1 / 2 ^ 53) ≤ y ∧ y ≤ x * (1 + 1 / 2 ^ 53) := by
  have hx : 0 < x := lt_of_lt_of_le (by positivity) h1
  obtain ⟨y, e, h⟩ := R_rel (x := x)
    (by
      rw [abs_of_pos hx]
      refine le_trans ?_ h1
      rw [show (1 : ℝ) / 2 ^ 100 = 2 ^ (-100 : ℤ) by norm_num]
      exact zpow_le_zpow_right₀ (by norm_num) (by norm_num))
    (by
      rw [abs_of_pos hx]
      exact h2.trans (pow_le_pow_right₀ (by norm_num) (by norm_num)))
  rw [abs_of_pos hx, abs_le] at h
  exact ⟨y, e, by linarith [h.1], by linarith [h.2]⟩

theorem le_big {x : ℝ} (h : x ≤ 2 ^ 100) : x ≤ 2 ^ 1000 := h.trans (pow_le_pow_right₀ (by norm_num) (by norm_num))

theorem sqrt2_near : (1.41421356 : ℝ) ≤ Lib.sqrt2 ∧ Lib.sqrt2 ≤ (1.41421357 : ℝ) := by
  have a : (1.414213562 : ℝ) ≤ √2 := Real.le_sqrt_of_sq_le (by norm_num)
  have b : √2 ≤ (1.414213563 : ℝ) := Real.sqrt_le_iff.2 ⟨by norm_num, by norm_num⟩
  obtain ⟨y, e, h1, h2⟩ := R_pos (x := √2) (le_trans (by norm_num) a) (le_big (b.trans (by norm_num)))
  have : Lib.sqrt2 = y := by
    show (Double.R √2).toReal = y
    rw [e]; rfl
  rw [this]
  constructor
  · nlinarith
  · nlinarith

theorem half_mul_R {x : ℝ} (h : Double.R (1 / 2 * x) = ((1 / 2 * x : ℝ) : EReal)) : half * fin x = fin (1 / 2 * x) := by
  show fin (1 / 2) * fin x = _
  rw [dmul, h, ofE_coe]

/-- far in the left tail the computed normal probability is 0 -/
theorem pnorm1_far {z : ℝ} (h1 : z ≤ -10) (h2 : -40 ≤ z) : pnorm1 (fin z) false = fin 0 := by
  have s := sqrt2_near
  have e1 : ∃ y, (fin z - 0) / 1 = fin y ∧ -40 ≤ y ∧ y ≤ -10 := by
    rw [zero_eq, one_eq, dsub, sub_zero]
    obtain ⟨y, e, a, b⟩ := R_between (x := z) (-40) (-10) (by norm_num) (by norm_num) (by push_cast; exact h2)
      (by push_cast; exact h1)
    push_cast at a b
    rw [e, ddiv _ one_ne_zero, div_one]
    obtain ⟨w, e', a', b'⟩ := R_between (x := y) (-40) (-10) (by norm_num) (by norm_num) (by push_cast; exact a)
      (by push_cast; exact b)
    push_cast at a' b'
    exact ⟨w, e', a', b'⟩
  obtain ⟨y, ey, y1, y2⟩ := e1
  have e2 : ∃ w, fin y / SQRT2 = fin w ∧ w ≤ -7 := by
    show ∃ w, fin y / fin Lib.sqrt2 = fin w ∧ w ≤ -7
    rw [ddiv _ (by linarith)]
    obtain ⟨w, e, -, h⟩ := R_between (x := y / Lib.sqrt2) (-40) (-7) (by norm_num) (by norm_num)
      (by rw [le_div_iff₀ (by linarith)]; push_cast; linarith)
      (by rw [div_le_iff₀ (by linarith)]; push_cast; linarith)
    exact ⟨w, e, by push_cast at h; exact h⟩
  obtain ⟨w, ew, hw⟩ := e2
  have e3 : Fl.erf (fin w) = fin (-1) := by
    show ofE (Double.R (Spec.erf w)) = _
    rw [R_neg_one (neg_one_lt_erf w).le, ofE_coe]
    have h1 := erf_tail (y := -w) (by linarith)
    rw [erf_neg] at h1
    have h2 : Real.exp (-(-w) ^ 2) ≤ Real.exp (-49) := Real.exp_le_exp.2 (by nlinarith)
    have h3 : Real.exp (-49) < 1 / 2 ^ 54 := by
      rw [show (-49 : ℝ) = -(((49 : ℕ) : ℝ) * 1) by norm_num, Real.exp_neg, Real.exp_nat_mul, ← inv_pow, one_div, ← inv_pow]
      have h1 := Real.exp_one_gt_d9
      calc (Real.exp 1)⁻¹ ^ 49 ≤ (2.7 : ℝ)⁻¹ ^ 49 := by gcongr; linarith
        _ < (2 : ℝ)⁻¹ ^ 54 := by norm_num
    linarith
  have hv : pnorm1 (fin z) false = pnorm_compute ((fin z - 0) / 1) := by
    rw [pnorm1, zero_eq, one_eq]
    simp [pnorm, norm_ok', norm_ok, log_if]
  rw [hv, ey, pnorm_compute, ew, e3, one_eq, dadd]
  norm_num
  rw [show Double.R 0 = _ from R_zero, ofE_coe]
  show fin (1 / 2) * fin 0 = fin 0
  rw [dmul, mul_zero, R_zero, ofE_coe]

theorem pnorm1_zero : pnorm1 (fin 0) false = fin (1 / 2) := by
  have s := sqrt2_near
  have hv : pnorm1 (fin 0) false = pnorm_compute ((fin 0 - 0) / 1) := by
    rw [pnorm1, zero_eq, one_eq]
    simp [pnorm, norm_ok', norm_ok, log_if]
  have e1 : (fin 0 - 0) / 1 = (fin 0 : Fl) := by
    rw [zero_eq, one_eq, dsub, sub_zero, R_zero, ofE_coe, ddiv _ one_ne_zero, zero_div, R_zero, ofE_coe]
  have e2 : fin 0 / SQRT2 = (fin 0 : Fl) := by
    show fin 0 / fin Lib.sqrt2 = _
    rw [ddiv _ (by linarith), zero_div, R_zero, ofE_coe]
  have e3 : Fl.erf (fin 0) = fin 0 := by
    show ofE (Double.R (Spec.erf 0)) = _
    rw [erf_zero, R_zero, ofE_coe]
  rw [hv, e1, pnorm_compute, e2, e3, one_eq, dadd, add_zero, R_int1, ofE_coe]
  show fin (1 / 2) * fin 1 = _
  rw [dmul, mul_one, R_half (by norm_num) le_rfl, ofE_coe]

theorem pinvgauss_eq {x mu lambda : ℝ} (hx : 0 < x) (hm : 0 < mu) (hl : 0 < lambda) (b : Bool) :
    pinvgauss (fin x) (fin mu) (fin lambda) b = log_if (pinvgauss_compute (fin x) (fin mu) (fin lambda)) b := by
  have n1 : ¬ mu < 0 := by linarith
  have n2 : ¬ lambda < 0 := by linarith
  have n3 : ¬ x < 0 := by linarith
  simp [pinvgauss, invgauss_ok', invgauss_ok, n1, n2, n3, hm.ne', hl.ne', hx.ne']

/-- At the mean `pinvgauss(1, 1, lambda)` is exactly 1/2 for every `lambda` between 25 and 300; the probability is larger by
more than `1/(6 √lambda)`, 0.033 for `lambda = 25`. -/
theorem C49_pinvgauss_double_violated {l : ℝ} (h1 : 25 ≤ l) (h2 : l ≤ 300) :
    pinvgauss (fin 1) (fin 1) (fin l) false = fin (1 / 2) ∧
    1 / 2 + 1 / (6 * √l) < ∫ t in Set.Iic 1, invgaussPdf 1 l t := by
  constructor
  · have e1 : ∃ y, fin l / fin 1 = fin y ∧ 25 ≤ y ∧ y ≤ 300 := by
      rw [ddiv _ one_ne_zero, div_one]
      obtain ⟨y, e, a, b⟩ := R_between (x := l) 25 300 (by norm_num) (by norm_num) (by push_cast; exact h1)
        (by push_cast; exact h2)
      push_cast at a b
      exact ⟨y, e, a, b⟩
    obtain ⟨y, ey, y1, y2⟩ := e1
    have e2 : ∃ s, Fl.sqrt (fin y) = fin s ∧ 5 ≤ s ∧ s ≤ 18 := by
      have : ¬ y < 0 := by linarith
      rw [Fl.sqrt, if_neg this]
      show ∃ s, ofE (Double.R √y) = fin s ∧ 5 ≤ s ∧ s ≤ 18
      obtain ⟨s, e, a, b⟩ := R_between (x := √y) 5 18 (by norm_num) (by norm_num)
        (by push_cast; exact Real.le_sqrt_of_sq_le (by linarith))
        (by push_cast; exact Real.sqrt_le_iff.2 ⟨by norm_num, by linarith⟩)
      push_cast at a b
      exact ⟨s, e, a, b⟩
    obtain ⟨s, es, s1, s2⟩ := e2
    have e3 : (fin 1 : Fl) / fin 1 = fin 1 := by rw [ddiv _ one_ne_zero, div_one, R_int1, ofE_coe]
    have e4 : (fin 1 : Fl) - 1 = fin 0 := by rw [one_eq, dsub, sub_self, R_zero, ofE_coe]
    have e5 : (fin 1 : Fl) + 1 = fin 2 := by
      rw [one_eq, dadd]
      have := R_int 2 (by norm_num)
      norm_num at this ⊢
      rw [this]; rfl
    have e6 : ∃ z, -fin s * fin 2 = fin z ∧ -40 ≤ z ∧ z ≤ -10 := by
      show ∃ z, fin (-s) * fin 2 = fin z ∧ _
      rw [dmul]
      obtain ⟨z, e, a, b⟩ := R_between (x := -s * 2) (-40) (-10) (by norm_num) (by norm_num) (by push_cast; linarith)
        (by push_cast; linarith)
      push_cast at a b
      exact ⟨z, e, a, b⟩
    obtain ⟨z, ez, z1, z2⟩ := e6
    have e7 : ∃ x, (2 : Fl) * fin l / fin 1 = fin x ∧ 0 ≤ x ∧ x ≤ 600 := by
      rw [ofNat_eq, dmul]
      obtain ⟨x, e, a, b⟩ := R_between (x := 2 * l) 0 600 (by norm_num) (by norm_num) (by push_cast; linarith)
        (by push_cast; linarith)
      push_cast at a b
      show ∃ x, ofE (Double.R (2 * l)) / fin 1 = fin x ∧ 0 ≤ x ∧ x ≤ 600
      rw [e, ddiv _ one_ne_zero, div_one]
      obtain ⟨w, e', a', b'⟩ := R_between (x := x) 0 600 (by norm_num) (by norm_num) (by push_cast; exact a)
        (by push_cast; exact b)
      push_cast at a' b'
      exact ⟨w, e', a', b'⟩
    obtain ⟨x, ex, x1, x2⟩ := e7
    have e8 : ∃ w, Fl.exp (fin x) = fin w := by
      show ∃ w, ofE (Double.R (Real.exp x)) = fin w
      obtain ⟨w, e, -, -⟩ := R_pos (x := Real.exp x)
        (le_trans (by norm_num) (Real.add_one_le_exp x |>.trans' (by linarith : (1 : ℝ) ≤ x + 1)))
        (by
          refine (Real.exp_le_exp.2 x2).trans ?_
          rw [show (600 : ℝ) = ((600 : ℕ) : ℝ) * 1 by norm_num, Real.exp_nat_mul]
          have := Real.exp_one_lt_d9
          calc Real.exp 1 ^ 600 ≤ 3 ^ 600 := by gcongr; linarith
            _ = (3 ^ 3 : ℝ) ^ 200 := by rw [← pow_mul]
            _ ≤ (2 ^ 5 : ℝ) ^ 200 := by gcongr; norm_num
            _ = 2 ^ 1000 := by rw [← pow_mul])
      exact ⟨w, by rw [e, ofE_coe]⟩
    obtain ⟨w, ew⟩ := e8
    rw [pinvgauss_eq one_pos one_pos (by linarith)]
    show pinvgauss_compute (fin 1) (fin 1) (fin l) = _
    rw [pinvgauss_compute, pinvgauss_compute_term_1, pinvgauss_compute_term_2, ey, es, e3, e4, e5, ez, ex, ew,
      pnorm1_far z2 z1, dmul, mul_zero, R_zero, ofE_coe, pnorm1_zero, dmul, mul_zero, R_zero, ofE_coe, dadd, add_zero,
      R_half (by norm_num) le_rfl, ofE_coe]
  · have hl : 0 < l := by linarith
    have hs : 5 ≤ √l := Real.le_sqrt_of_sq_le (by linarith)
    rw [(isCdf_invgauss one_pos hl).running, if_pos one_pos, invgaussCdf]
    have a : √(l / 1) * (1 / 1 - 1) = 0 := by norm_num
    have b : -√(l / 1) * (1 / 1 + 1) = -(2 * √l) := by rw [div_one]; ring
    have c : Phi 0 = 1 / 2 := by simp [Phi]
    rw [a, b, c]
    have d := le_erfc (y := √2 * √l) (by positivity)
    have f : Phi (-(2 * √l)) = 1 / 2 * (1 - Spec.erf (√2 * √l)) := by
      rw [Phi, show -(2 * √l) / √2 = -(√2 * √l) by
        have : √2 * √2 = 2 := Real.mul_self_sqrt (by norm_num)
        field_simp
        linarith [this], erf_neg]
      ring
    have g : (√2 * √l) ^ 2 = 2 * l := by rw [mul_pow, Real.sq_sqrt (by norm_num), Real.sq_sqrt hl.le]
    rw [g] at d
    have hp : √Real.pi ≤ 1.8 := Real.sqrt_le_iff.2 ⟨by norm_num, by norm_num; linarith [Real.pi_lt_d2]⟩
    have hp0 : 0 < √Real.pi := Real.sqrt_pos.2 Real.pi_pos
    have h2 : 1.4 ≤ √2 := Real.le_sqrt_of_sq_le (by norm_num)
    have key : 1 / (6 * √l) < 1 / 2 * (2 * (√2 * √l) / (√Real.pi * (1 + 2 * (2 * l)))) := by
      rw [show (1 : ℝ) / 2 * (2 * (√2 * √l) / (√Real.pi * (1 + 2 * (2 * l)))) = √2 * √l / (√Real.pi * (1 + 4 * l)) by ring,
        div_lt_div_iff₀ (by positivity) (by positivity)]
      have hq : √l * √l = l := Real.mul_self_sqrt hl.le
      calc 1 * (√Real.pi * (1 + 4 * l)) ≤ 1.8 * (1 + 4 * l) := by rw [one_mul]; gcongr
        _ < 1.4 * (6 * l) := by linarith
        _ ≤ √2 * (6 * l) := by gcongr
        _ = √2 * √l * (6 * √l) := by linear_combination (-6 * √2) * hq
    rw [f]
    have he : Real.exp (2 * l / 1) * (1 / 2 * (1 - Spec.erf (√2 * √l))) ≥
        1 / 2 * (2 * (√2 * √l) / (√Real.pi * (1 + 2 * (2 * l)))) := by
      calc _ ≥ Real.exp (2 * l / 1) * (1 / 2 * (2 * (√2 * √l) / (√Real.pi * (1 + 2 * (2 * l))) * Real.exp (-(2 * l)))) := by
            gcongr
        _ = 1 / 2 * (2 * (√2 * √l) / (√Real.pi * (1 + 2 * (2 * l)))) * (Real.exp (2 * l) * Real.exp (-(2 * l))) := by
            rw [div_one]; ring
        _ = _ := by rw [← Real.exp_add, add_neg_cancel, Real.exp_zero, mul_one]
    linarith

/-! ### distribution functions above 1 -/

/-- a computed probability above 1 has a positive logarithm -/
theorem log_pos_of {y : ℝ} (h1 : 1 + 1 / 2 ^ 52 ≤ y) (h2 : y ≤ 2) : fin 0 < log_if (fin y) true := by
  have hy : 0 < y := lt_of_lt_of_le (by norm_num) h1
  have n1 : ¬ y < 0 := hy.not_gt
  have e : log_if (fin y) true = ofE (Double.R (Real.log y)) := by
    rw [log_if, if_pos rfl, log_fin, if_neg n1, if_neg hy.ne']; rfl
  have a : 1 / 2 ^ 53 ≤ Real.log y := by
    have h3 := Real.one_sub_inv_le_log_of_pos hy
    have h4 : y⁻¹ ≤ (1 + 1 / 2 ^ 52)⁻¹ := inv_anti₀ (by norm_num) h1
    norm_num at h4 ⊢
    linarith
  obtain ⟨w, ew, hw, -⟩ := R_pos (x := Real.log y) (le_trans (by norm_num) a)
    (le_big ((Real.log_le_sub_one_of_pos hy).trans (by norm_num; linarith)))
  rw [e, ew, ofE_coe]
  show (0 : ℝ) < w
  norm_num at hw
  nlinarith

theorem R_ge {a x y : ℝ} (ha : Double.R a = ((a : ℝ) : EReal)) (h : a ≤ x) (hx : Double.R x = (y : EReal)) : a ≤ y := by
  have := Double.R_mono h
  rw [ha, hx] at this
  exact_mod_cast this

theorem exp_pow_bounds (n : ℕ) : (2.7182818283 : ℝ) ^ n ≤ Real.exp n ∧ Real.exp n ≤ 2.7182818286 ^ n := by
  have e : Real.exp n = Real.exp 1 ^ n := by rw [← Real.exp_nat_mul, mul_one]
  rw [e]
  have h1 := Real.exp_one_gt_d9
  have h2 := Real.exp_one_lt_d9
  constructor <;> gcongr

theorem sqrt_pi_mem : (1.772 : ℝ) ≤ √Real.pi ∧ √Real.pi ≤ 1.773 :=
  ⟨Real.le_sqrt_of_sq_le (by norm_num; linarith [Real.pi_gt_d4]), Real.sqrt_le_iff.2 ⟨by norm_num, by norm_num; linarith [Real.pi_lt_d4]⟩⟩

/-- the steps of `pnorm1` at a number that needs no rounding -/
theorem pnorm1_steps {z : ℝ} (hz : Double.R z = ((z : ℝ) : EReal)) : pnorm1 (fin z) false = half * (1 + Fl.erf (fin z / SQRT2)) := by
  have hv : pnorm1 (fin z) false = pnorm_compute ((fin z - 0) / 1) := by
    rw [pnorm1, zero_eq, one_eq]
    simp [pnorm, norm_ok', norm_ok, log_if]
  rw [hv, zero_eq, one_eq, dsub, sub_zero, hz, ofE_coe, ddiv _ one_ne_zero, div_one, hz, ofE_coe, pnorm_compute, one_eq]

/-- `pnorm(801/128)`: rounding costs at most `2^-51` -/
theorem pnorm1_right : ∃ t, pnorm1 (fin (801 / 128)) false = fin t ∧ 1 - 2.03 / 10 ^ 10 ≤ t ∧ t ≤ 1 := by
  have s := sqrt2_near
  have hz : Double.R (801 / 128) = ((801 / 128 : ℝ) : EReal) := by
    rw [Double.R_near 2 (801 * 2 ^ 43) (by norm_num) (by norm_num) (by norm_num) (by norm_num) (by norm_num)]
    norm_num
  rw [pnorm1_steps hz]
  have a : 4.42494 ≤ 801 / 128 / Lib.sqrt2 := by rw [le_div_iff₀ (by linarith)]; linarith
  have b : 801 / 128 / Lib.sqrt2 ≤ 4.425 := by rw [div_le_iff₀ (by linarith)]; linarith
  obtain ⟨y, ey, y1, y2⟩ := R_pos (x := 801 / 128 / Lib.sqrt2) (le_trans (by norm_num) a) (le_big (b.trans (by norm_num)))
  have ya : 4.4249 ≤ y := by norm_num at y1 a ⊢; linarith
  have yb : y ≤ 4.43 := by norm_num at y2 b ⊢; linarith
  have e1 : fin (801 / 128) / SQRT2 = fin y := by
    show fin (801 / 128) / fin Lib.sqrt2 = _
    rw [ddiv _ (by linarith), ey, ofE_coe]
  -- the tail
  have t1 := erfc_le (y := y) (by linarith)
  have hp := sqrt_pi_mem
  have t2 : Real.exp (-y ^ 2) ≤ 3.155 / 10 ^ 9 := by
    have q1 : (19 : ℝ) + 0.5797 ≤ y ^ 2 := by nlinarith
    have q2 := exp_pow_bounds 19
    have q3 : (1.7779 : ℝ) ≤ Real.exp 0.5797 := by
      have := Real.sum_le_exp_of_nonneg (x := 0.5797) (by norm_num) 4
      norm_num [Finset.sum_range_succ, Nat.factorial] at this ⊢
      linarith
    have q4 : (1 : ℝ) / (3.155 / 10 ^ 9) ≤ Real.exp (y ^ 2) := by
      refine le_trans ?_ (Real.exp_le_exp.2 q1)
      rw [Real.exp_add]
      calc (1 : ℝ) / (3.155 / 10 ^ 9) ≤ 2.7182818283 ^ 19 * 1.7779 := by norm_num
        _ ≤ _ := by gcongr; exact_mod_cast q2.1
    rw [Real.exp_neg, inv_le_comm₀ (Real.exp_pos _) (by norm_num), ← one_div]
    exact q4
  have t3 : 1 - Spec.erf y ≤ 4.03 / 10 ^ 10 := by
    refine t1.trans ?_
    rw [div_le_iff₀ (by nlinarith)]
    refine t2.trans ?_
    nlinarith
  have t4 := erf_lt_one y
  obtain ⟨w, ew, w1, w2⟩ := R_pos (x := Spec.erf y) (by norm_num at t3 ⊢; linarith) (le_big (by norm_num; linarith))
  have wb : w ≤ 1 := by
    have := Double.R_mono t4.le
    rw [R_int1, ew] at this
    exact_mod_cast this
  have e2 : Fl.erf (fin y) = fin w := by show ofE (Double.R (Spec.erf y)) = _; rw [ew, ofE_coe]
  obtain ⟨v, ev, v1, v2⟩ := R_pos (x := 1 + w) (by norm_num at w1 t3 ⊢; linarith) (le_big (by norm_num; linarith))
  have vb : v ≤ 2 := by
    have := Double.R_mono (show 1 + w ≤ (2 : ℤ) by push_cast; linarith)
    rw [R_int 2 (by norm_num), ev] at this
    exact_mod_cast this
  obtain ⟨t, et, t5, t6⟩ := R_pos (x := 1 / 2 * v) (by norm_num at v1 w1 t3 ⊢; linarith) (le_big (by norm_num; linarith))
  refine ⟨t, ?_, ?_, ?_⟩
  · rw [e1, e2, one_eq, dadd, ev, ofE_coe]
    show fin (1 / 2) * fin v = _
    rw [dmul, et, ofE_coe]
  · norm_num at t5 v1 w1 t3 ⊢
    linarith
  · have := Double.R_mono (show 1 / 2 * v ≤ 1 by linarith)
    rw [R_int1, et] at this
    exact_mod_cast this

/-- `pnorm(-267/32)` is rounded up to `2^-54` or more; the probability is `3.6e-17` -/
theorem pnorm1_left : ∃ t, pnorm1 (fin (-(267 / 32))) false = fin t ∧ 1 / 2 ^ 54 ≤ t ∧ t ≤ 1 / 2 ^ 40 := by
  have s := sqrt2_near
  have hz : Double.R (-(267 / 32)) = ((-(267 / 32) : ℝ) : EReal) := by
    rw [Double.R_neg, Double.R_near 3 (267 * 2 ^ 44) (by norm_num) (by norm_num) (by norm_num) (by norm_num) (by norm_num)]
    norm_num
  rw [pnorm1_steps hz]
  have a : 5.8 ≤ 267 / 32 / Lib.sqrt2 := by rw [le_div_iff₀ (by linarith)]; linarith
  have b : 267 / 32 / Lib.sqrt2 ≤ 5.89993 := by rw [div_le_iff₀ (by linarith)]; linarith
  obtain ⟨y, ey, y1, y2⟩ := R_pos (x := 267 / 32 / Lib.sqrt2) (le_trans (by norm_num) a) (le_big (b.trans (by norm_num)))
  have ya : 5.7 ≤ y := by norm_num at y1 a ⊢; linarith
  have yb : y ≤ 5.9 := by norm_num at y2 b ⊢; linarith
  have e1 : fin (-(267 / 32)) / SQRT2 = fin (-y) := by
    show fin (-(267 / 32)) / fin Lib.sqrt2 = _
    rw [ddiv _ (by linarith), neg_div, Double.R_neg, ey, ← EReal.coe_neg, ofE_coe]
  have hp := sqrt_pi_mem
  have t1 : 1 / 2 ^ 54 + 1 / 2 ^ 60 ≤ 1 - Spec.erf y := by
    have m := strictMono_erf.monotone yb
    have l := le_erfc (y := 5.9) (by norm_num)
    have q2 := exp_pow_bounds 34
    have q3 : Real.exp 0.81 ≤ 2.285 := by
      have h1 : Real.exp 0.81 * Real.exp 0.19 = Real.exp 1 := by rw [← Real.exp_add]; norm_num
      have h2 := Real.add_one_le_exp (0.19 : ℝ)
      have h3 := Real.exp_one_lt_d9
      have h4 := Real.exp_pos 0.81
      nlinarith
    have q4 : Real.exp (5.9 ^ 2) ≤ 2.7182818286 ^ 34 * 2.285 := by
      rw [show (5.9 : ℝ) ^ 2 = 34 + 0.81 by norm_num, Real.exp_add]
      gcongr
      exact_mod_cast q2.2
    have q5 : (2.7182818286 ^ 34 * 2.285 : ℝ)⁻¹ ≤ Real.exp (-5.9 ^ 2) := by
      rw [Real.exp_neg]
      exact inv_anti₀ (Real.exp_pos _) q4
    have q6 : (2 * 5.9 / (1.773 * (1 + 2 * 5.9 ^ 2)) : ℝ) ≤ 2 * 5.9 / (√Real.pi * (1 + 2 * 5.9 ^ 2)) := by
      gcongr
      · linarith
    calc (1 : ℝ) / 2 ^ 54 + 1 / 2 ^ 60 ≤ 2 * 5.9 / (1.773 * (1 + 2 * 5.9 ^ 2)) * (2.7182818286 ^ 34 * 2.285)⁻¹ := by norm_num
      _ ≤ 2 * 5.9 / (√Real.pi * (1 + 2 * 5.9 ^ 2)) * Real.exp (-5.9 ^ 2) := by gcongr
      _ ≤ 1 - Spec.erf 5.9 := l
      _ ≤ 1 - Spec.erf y := by linarith
  have t2 : 1 - Spec.erf y ≤ 1 / 2 ^ 45 := by
    have := erf_tail (y := y) (by linarith)
    have h2 : Real.exp (-y ^ 2) ≤ Real.exp (-32) := Real.exp_le_exp.2 (by nlinarith)
    have h3 := (exp_pow_bounds 32).1
    have h4 : Real.exp (-32) ≤ 1 / 2 ^ 45 := by
      rw [Real.exp_neg, inv_le_comm₀ (Real.exp_pos _) (by norm_num)]
      refine le_trans ?_ (by exact_mod_cast h3)
      norm_num
    linarith
  obtain ⟨w, ew, w1, w2⟩ := R_pos (x := Spec.erf y) (by norm_num at t2 ⊢; linarith) (le_big (by norm_num at t1 ⊢; linarith))
  have wb : w ≤ 1 - 1 / 2 ^ 53 := by
    have := Double.R_mono (show Spec.erf y ≤ 1 - 1 / 2 ^ 54 - 1 / 2 ^ 60 by linarith)
    rw [Double.R_near (x := 1 - 1 / 2 ^ 54 - 1 / 2 ^ 60) (-1) (2 ^ 53 - 1) (by norm_num) (by norm_num) (by norm_num)
      (by norm_num) (by rw [abs_lt]; constructor <;> norm_num), ew] at this
    have : w ≤ ((2 ^ 53 - 1 : ℤ) : ℝ) * 2 ^ (-1 - 52 : ℤ) := by exact_mod_cast this
    norm_num at this ⊢
    exact this
  have e2 : Fl.erf (fin (-y)) = fin (-w) := by
    show ofE (Double.R (Spec.erf (-y))) = _
    rw [erf_neg, Double.R_neg, ew, ← EReal.coe_neg, ofE_coe]
  obtain ⟨v, ev, v1, v2⟩ := R_pos (x := 1 + -w) (by norm_num at wb ⊢; linarith) (le_big (by norm_num at w1 t2 ⊢; linarith))
  have vb : 1 / 2 ^ 53 ≤ v := R_ge (Double.R_pow 53 (by norm_num)) (by linarith) ev
  obtain ⟨t, et, t5, t6⟩ := R_pos (x := 1 / 2 * v) (by norm_num at vb ⊢; linarith)
    (le_big (by norm_num at v2 w1 t2 ⊢; linarith))
  refine ⟨t, ?_, ?_, ?_⟩
  · rw [e1, e2, one_eq, dadd, ev, ofE_coe]
    show fin (1 / 2) * fin v = _
    rw [dmul, et, ofE_coe]
  · exact R_ge (Double.R_pow 54 (by norm_num)) (by norm_num at vb ⊢; linarith) et
  · norm_num at t6 v2 w1 t2 ⊢
    linarith

/-- `pinvgauss(7, 1, 7.6145)` exceeds 1 by more than `2^-37`; its logarithm is positive. -/
theorem C09_pinvgauss_double_violated : ∃ y, pinvgauss (fin 7) (fin 1) (fin (499023 / 65536)) false = fin y ∧
    1 + 1 / 2 ^ 37 ≤ y ∧ fin 0 < pinvgauss (fin 7) (fin 1) (fin (499023 / 65536)) true := by
  have e1 : fin (499023 / 65536) / fin 7 = (fin (71289 / 65536) : Fl) := by
    rw [ddiv _ (by norm_num), show (499023 / 65536 / 7 : ℝ) = 71289 / 65536 by norm_num,
      Double.R_near 0 (71289 * 2 ^ 36) (by norm_num) (by norm_num) (by norm_num) (by norm_num) (by norm_num)]
    norm_num
  have e2 : Fl.sqrt (fin (71289 / 65536)) = fin (267 / 256) := by
    rw [Fl.sqrt, if_neg (by norm_num)]
    show ofE (Double.R √(71289 / 65536)) = _
    rw [show (71289 / 65536 : ℝ) = (267 / 256) ^ 2 by norm_num, Real.sqrt_sq (by norm_num),
      Double.R_near 0 (267 * 2 ^ 44) (by norm_num) (by norm_num) (by norm_num) (by norm_num) (by norm_num)]
    norm_num
  have i6 := R_int 6 (by norm_num)
  have i7 := R_int 7 (by norm_num)
  have i8 := R_int 8 (by norm_num)
  norm_num at i6 i7 i8
  have e3 : (fin 7 : Fl) / fin 1 = fin 7 := by rw [ddiv _ one_ne_zero, div_one, i7]; rfl
  have e4 : (fin 7 : Fl) - 1 = fin 6 := by rw [one_eq, dsub, show (7 : ℝ) - 1 = 6 by norm_num, i6]; rfl
  have e5 : (fin 7 : Fl) + 1 = fin 8 := by rw [one_eq, dadd, show (7 : ℝ) + 1 = 8 by norm_num, i8]; rfl
  have e6 : fin (267 / 256) * fin 6 = (fin (801 / 128) : Fl) := by
    rw [dmul, show (267 / 256 * 6 : ℝ) = 801 / 128 by norm_num,
      Double.R_near 2 (801 * 2 ^ 43) (by norm_num) (by norm_num) (by norm_num) (by norm_num) (by norm_num)]
    norm_num
  have e7 : -fin (267 / 256) * fin 8 = (fin (-(267 / 32)) : Fl) := by
    show fin (-(267 / 256)) * fin 8 = _
    rw [dmul, show (-(267 / 256) * 8 : ℝ) = -(267 / 32) by norm_num, Double.R_neg,
      Double.R_near 3 (267 * 2 ^ 44) (by norm_num) (by norm_num) (by norm_num) (by norm_num) (by norm_num)]
    norm_num
    rfl
  have e8 : (2 : Fl) * fin (499023 / 65536) / fin 1 = fin (499023 / 32768) := by
    have h : Double.R (499023 / 32768) = ((499023 / 32768 : ℝ) : EReal) := by
      rw [Double.R_near 3 (499023 * 2 ^ 34) (by norm_num) (by norm_num) (by norm_num) (by norm_num) (by norm_num)]
      norm_num
    rw [ofNat_eq, dmul]
    show ofE (Double.R (2 * (499023 / 65536))) / fin 1 = _
    rw [show (2 * (499023 / 65536) : ℝ) = 499023 / 32768 by norm_num, h, ofE_coe, ddiv _ one_ne_zero, div_one, h, ofE_coe]
  have x1 : (4.1 * 10 ^ 6 : ℝ) ≤ Real.exp (499023 / 32768) := by
    rw [show (499023 / 32768 : ℝ) = (15 : ℕ) + 7503 / 32768 by norm_num, Real.exp_add]
    have q2 := (exp_pow_bounds 15).1
    have q3 : (1.255 : ℝ) ≤ Real.exp (7503 / 32768) := by
      have := Real.quadratic_le_exp_of_nonneg (x := 7503 / 32768) (by norm_num)
      norm_num at this ⊢
      linarith
    calc (4.1 * 10 ^ 6 : ℝ) ≤ 2.7182818283 ^ 15 * 1.255 := by norm_num
      _ ≤ _ := by gcongr
  have x2 : Real.exp (499023 / 32768) ≤ 10 ^ 7 := by
    refine (Real.exp_le_exp.2 (by norm_num : (499023 / 32768 : ℝ) ≤ (16 : ℕ))).trans ((exp_pow_bounds 16).2.trans (by norm_num))
  obtain ⟨x, ex, xa, xb⟩ := R_pos (x := Real.exp (499023 / 32768)) (le_trans (by norm_num) x1) (le_big (x2.trans (by norm_num)))
  have e9 : Fl.exp (fin (499023 / 32768)) = fin x := by
    show ofE (Double.R (Real.exp _)) = _
    rw [ex, ofE_coe]
  obtain ⟨t, et, t1, t2⟩ := pnorm1_right
  obtain ⟨r, er, r1, r2⟩ := pnorm1_left
  have xl : (4.09 * 10 ^ 6 : ℝ) ≤ x := by norm_num at xa x1 ⊢; linarith
  have xu : x ≤ 2 * 10 ^ 7 := by norm_num at xb x2 ⊢; linarith
  have pl : (4.09 * 10 ^ 6 * (1 / 2 ^ 54) : ℝ) ≤ x * r := mul_le_mul xl r1 (by norm_num) (by linarith)
  have pu : x * r ≤ 2 * 10 ^ 7 * (1 / 2 ^ 40) := mul_le_mul xu r2 (by linarith [show (0 : ℝ) ≤ 1 / 2 ^ 54 by norm_num]) (by norm_num)
  obtain ⟨m, em, m1, m2⟩ := R_pos (x := x * r) (le_trans (by norm_num) pl) (le_big (pu.trans (by norm_num)))
  have s1 : 1 + 1 / 2 ^ 37 + 1 / 2 ^ 50 ≤ t + m := by norm_num at m1 pl t1 ⊢; linarith
  have s2 : t + m ≤ 1.5 := by norm_num at m2 pu t2 ⊢; linarith
  obtain ⟨y, ey, y1, y2⟩ := R_pos (x := t + m) (le_trans (by norm_num) s1) (le_big (s2.trans (by norm_num)))
  have hc : pinvgauss_compute (fin 7) (fin 1) (fin (499023 / 65536)) = fin y := by
    rw [pinvgauss_compute, pinvgauss_compute_term_1, pinvgauss_compute_term_2, e1, e2, e3, e4, e5, e6, e7, e8, e9, et, er,
      dmul, em, ofE_coe, dadd, ey, ofE_coe]
  have ya : 1 + 1 / 2 ^ 37 ≤ y := by norm_num at y1 s1 ⊢; linarith
  have yb : y ≤ 2 := by norm_num at y2 s2 ⊢; linarith
  have hv := pinvgauss_eq (x := 7) (mu := 1) (lambda := 499023 / 65536) (by norm_num) one_pos (by norm_num)
  refine ⟨y, by rw [hv, hc]; rfl, ya, ?_⟩
  rw [hv, hc]
  exact log_pos_of (le_trans (by norm_num) ya) yb

/-- ... and 1 at infinity: not monotone -/
theorem C10_pinvgauss_double_violated : ¬ MonoCdf fun x => pinvgauss x (fin 1) (fin (499023 / 65536)) := by
  intro h
  obtain ⟨y, e, h1, -⟩ := C09_pinvgauss_double_violated
  have := h (fin 7) pinf (by simp) false
  have n1 : ¬ (499023 / 65536 : ℝ) < 0 := by norm_num
  have hi : pinvgauss pinf (fin 1) (fin (499023 / 65536)) false = fin 1 := by
    simp [pinvgauss, invgauss_ok', invgauss_ok, n1, pinvgauss_limit_vals, log_if]
  simp only [e, hi] at this
  have : y ≤ 1 := this
  norm_num at h1
  linarith

/-! ### `ppois` -/

/-- `R` at a number of the form `n * 2^k` with `n` of at most 53 bits -/
theorem fin_near {x : ℝ} (e n : ℤ) (h1 : (2 : ℝ) ^ e ≤ x) (h2 : x < 2 ^ (e + 1)) (he : -1022 ≤ e) (he' : e ≤ 1022)
    (hn : |x / 2 ^ (e - 52) - n| < 1 / 2) : ofE (Double.R x) = fin (n * 2 ^ (e - 52)) := by
  rw [Double.R_near e n h1 h2 he he' hn, ofE_coe]

theorem exp_neg_near : Fl.exp (-fin (3 / 256)) = fin (8902262204907348 / 2 ^ 53) := by
  show ofE (Double.R (Real.exp (-(3 / 256)))) = _
  have h := Real.exp_bound (x := -(3 / 256)) (by norm_num) (n := 8) (by norm_num)
  rw [abs_le] at h
  norm_num [Finset.sum_range_succ, Nat.factorial] at h
  obtain ⟨h1, h2⟩ := h
  have a : (2 : ℝ) ^ (-1 : ℤ) ≤ Real.exp (-(3 / 256)) := by norm_num; linarith
  have b : Real.exp (-(3 / 256)) < (2 : ℝ) ^ (-1 + 1 : ℤ) := by norm_num
  rw [fin_near (-1) 8902262204907348 a b (by norm_num) (by norm_num) ?_]
  · norm_num
  · rw [abs_lt]
    constructor
    · norm_num; linarith
    · norm_num; linarith

theorem ppois_six : ppois_compute 6 (fin (3 / 256)) = fin (1 + 1 / 2 ^ 52) := by
  have w1 : powi (fin (3 / 256)) 1 = (fin (3 / 256) : Fl) := by
    rw [show powi (fin (3 / 256)) 1 = ofE (Double.R ((3 / 256) ^ 1)) from rfl, fin_near (-7) 6755399441055744 (by norm_num) (by norm_num) (by norm_num) (by norm_num) (by norm_num [abs_lt])]
    norm_num
  have w2 : powi (fin (3 / 256)) 2 = (fin (9 / 65536) : Fl) := by
    rw [show powi (fin (3 / 256)) 2 = ofE (Double.R ((3 / 256) ^ 2)) from rfl, fin_near (-13) 5066549580791808 (by norm_num) (by norm_num) (by norm_num) (by norm_num) (by norm_num [abs_lt])]
    norm_num
  have w3 : powi (fin (3 / 256)) 3 = (fin (27 / 16777216) : Fl) := by
    rw [show powi (fin (3 / 256)) 3 = ofE (Double.R ((3 / 256) ^ 3)) from rfl, fin_near (-20) 7599824371187712 (by norm_num) (by norm_num) (by norm_num) (by norm_num) (by norm_num [abs_lt])]
    norm_num
  have w4 : powi (fin (3 / 256)) 4 = (fin (81 / 4294967296) : Fl) := by
    rw [show powi (fin (3 / 256)) 4 = ofE (Double.R ((3 / 256) ^ 4)) from rfl, fin_near (-26) 5699868278390784 (by norm_num) (by norm_num) (by norm_num) (by norm_num) (by norm_num [abs_lt])]
    norm_num
  have w5 : powi (fin (3 / 256)) 5 = (fin (243 / 1099511627776) : Fl) := by
    rw [show powi (fin (3 / 256)) 5 = ofE (Double.R ((3 / 256) ^ 5)) from rfl, fin_near (-33) 8549802417586176 (by norm_num) (by norm_num) (by norm_num) (by norm_num) (by norm_num [abs_lt])]
    norm_num
  have w6 : powi (fin (3 / 256)) 6 = (fin (729 / 281474976710656) : Fl) := by
    rw [show powi (fin (3 / 256)) 6 = ofE (Double.R ((3 / 256) ^ 6)) from rfl, fin_near (-39) 6412351813189632 (by norm_num) (by norm_num) (by norm_num) (by norm_num) (by norm_num [abs_lt])]
    norm_num
  have i1 := R_int 1 (by norm_num)
  have f1 : ofInt ((1 : ℕ).factorial : ℤ) = (fin 1 : Fl) := by
    show ofE (Double.R _) = _
    norm_num [Nat.factorial] at i1 ⊢
    rw [i1]; rfl
  have q1 : fin (3 / 256) / fin 1 = (fin (3 / 256) : Fl) := by
    rw [ddiv _ (by norm_num), fin_near (-7) 6755399441055744 (by norm_num) (by norm_num) (by norm_num) (by norm_num) (by norm_num [abs_lt])]
    norm_num
  have i2 := R_int 2 (by norm_num)
  have f2 : ofInt ((2 : ℕ).factorial : ℤ) = (fin 2 : Fl) := by
    show ofE (Double.R _) = _
    norm_num [Nat.factorial] at i2 ⊢
    rw [i2]; rfl
  have q2 : fin (9 / 65536) / fin 2 = (fin (9 / 131072) : Fl) := by
    rw [ddiv _ (by norm_num), fin_near (-14) 5066549580791808 (by norm_num) (by norm_num) (by norm_num) (by norm_num) (by norm_num [abs_lt])]
    norm_num
  have i3 := R_int 6 (by norm_num)
  have f3 : ofInt ((3 : ℕ).factorial : ℤ) = (fin 6 : Fl) := by
    show ofE (Double.R _) = _
    norm_num [Nat.factorial] at i3 ⊢
    rw [i3]; rfl
  have q3 : fin (27 / 16777216) / fin 6 = (fin (9 / 33554432) : Fl) := by
    rw [ddiv _ (by norm_num), fin_near (-22) 5066549580791808 (by norm_num) (by norm_num) (by norm_num) (by norm_num) (by norm_num [abs_lt])]
    norm_num
  have i4 := R_int 24 (by norm_num)
  have f4 : ofInt ((4 : ℕ).factorial : ℤ) = (fin 24 : Fl) := by
    show ofE (Double.R _) = _
    norm_num [Nat.factorial] at i4 ⊢
    rw [i4]; rfl
  have q4 : fin (81 / 4294967296) / fin 24 = (fin (27 / 34359738368) : Fl) := by
    rw [ddiv _ (by norm_num), fin_near (-31) 7599824371187712 (by norm_num) (by norm_num) (by norm_num) (by norm_num) (by norm_num [abs_lt])]
    norm_num
  have i5 := R_int 120 (by norm_num)
  have f5 : ofInt ((5 : ℕ).factorial : ℤ) = (fin 120 : Fl) := by
    show ofE (Double.R _) = _
    norm_num [Nat.factorial] at i5 ⊢
    rw [i5]; rfl
  have q5 : fin (243 / 1099511627776) / fin 120 = (fin (4559894622712627 / 2475880078570760549798248448) : Fl) := by
    rw [ddiv _ (by norm_num), fin_near (-39) 4559894622712627 (by norm_num) (by norm_num) (by norm_num) (by norm_num) (by norm_num [abs_lt])]
    norm_num
  have i6 := R_int 720 (by norm_num)
  have f6 : ofInt ((6 : ℕ).factorial : ℤ) = (fin 720 : Fl) := by
    show ofE (Double.R _) = _
    norm_num [Nat.factorial] at i6 ⊢
    rw [i6]; rfl
  have q6 : fin (729 / 281474976710656) / fin 720 = (fin (4559894622712627 / 1267650600228229401496703205376) : Fl) := by
    rw [ddiv _ (by norm_num), fin_near (-48) 4559894622712627 (by norm_num) (by norm_num) (by norm_num) (by norm_num) (by norm_num [abs_lt])]
    norm_num
  have a5 : fin (4559894622712627 / 2475880078570760549798248448) + fin (4559894622712627 / 1267650600228229401496703205376) = (fin (4568800666897613 / 2475880078570760549798248448) : Fl) := by
    rw [dadd, fin_near (-39) 4568800666897613 (by norm_num) (by norm_num) (by norm_num) (by norm_num) (by norm_num [abs_lt])]
    norm_num
  have a4 : fin (27 / 34359738368) + fin (4568800666897613 / 2475880078570760549798248448) = (fin (7617671248792781 / 9671406556917033397649408) : Fl) := by
    rw [dadd, fin_near (-31) 7617671248792781 (by norm_num) (by norm_num) (by norm_num) (by norm_num) (by norm_num [abs_lt])]
    norm_num
  have a3 : fin (9 / 33554432) + fin (7617671248792781 / 9671406556917033397649408) = (fin (2540713922474803 / 9444732965739290427392) : Fl) := by
    rw [dadd, fin_near (-22) 5081427844949606 (by norm_num) (by norm_num) (by norm_num) (by norm_num) (by norm_num [abs_lt])]
    norm_num
  have a2 : fin (9 / 131072) + fin (2540713922474803 / 9444732965739290427392) = (fin (2543199454155571 / 36893488147419103232) : Fl) := by
    rw [dadd, fin_near (-14) 5086398908311142 (by norm_num) (by norm_num) (by norm_num) (by norm_num) (by norm_num [abs_lt])]
    norm_num
  have a1 : fin (3 / 256) + fin (2543199454155571 / 36893488147419103232) = (fin (6795136932526925 / 576460752303423488) : Fl) := by
    rw [dadd, fin_near (-7) 6795136932526925 (by norm_num) (by norm_num) (by norm_num) (by norm_num) (by norm_num [abs_lt])]
    norm_num
  have sS : 1 + fin (6795136932526925 / 576460752303423488) = (fin (4556686634655863 / 4503599627370496) : Fl) := by
    rw [one_eq, dadd, fin_near (0) 4556686634655863 (by norm_num) (by norm_num) (by norm_num) (by norm_num) (by norm_num [abs_lt])]
    norm_num
  have vV : fin (8902262204907348 / 2 ^ 53) * fin (4556686634655863 / 4503599627370496) = (fin (4503599627370497 / 4503599627370496) : Fl) := by
    rw [dmul, fin_near (0) 4503599627370497 (by norm_num) (by norm_num) (by norm_num) (by norm_num) (by norm_num [abs_lt])]
    norm_num
  have h : ¬ ((fin (3 / 256) : Fl) > 10 ∨ (6 : ℤ) > 15) := by
    rw [ofNat_eq]
    rintro (h | h)
    · have : (10 : ℝ) < 3 / 256 := h
      norm_num at this
    · omega
  rw [ppois_compute, if_neg h, ppois_compute_recur, if_neg (by norm_num), if_neg (by norm_num), exp_neg_near]
  show fin (8902262204907348 / 2 ^ 53) * (1 + ppois_compute_recur_tail (fin (3 / 256)) 5 1) = _
  simp only [ppois_compute_recur_tail]
  rw [w1, w2, w3, w4, w5, w6, f1, f2, f3, f4, f5, f6, q1, q2, q3, q4, q5, q6, a5, a4, a3, a2, a1, sS, vV]
  norm_num

/-- `ppois(6, 3/256)` is the binary64 number after 1; its logarithm is positive. -/
theorem C09_ppois_double_violated : ppois 6 (fin (3 / 256)) false = fin (1 + 1 / 2 ^ 52) ∧
    fin 0 < ppois 6 (fin (3 / 256)) true := by
  have n1 : ¬ (3 / 256 : ℝ) < 0 := by norm_num
  have hv : ∀ b, ppois 6 (fin (3 / 256)) b = log_if (fin (1 + 1 / 2 ^ 52)) b := fun b => by
    simp [ppois, pois_ok, n1, ppois_six]
  exact ⟨by rw [hv]; rfl, by rw [hv]; exact log_pos_of le_rfl (by norm_num)⟩

/-- ... and `ppois(16, 3/256)`, which takes the other branch, is at most 1: not monotone -/
theorem C10_ppois_double_violated : ¬ MonoCdfZ fun k => ppois k (fin (3 / 256)) := by
  intro h
  have h1 := h 6 16 (by norm_num) false
  have h2 := C09_ppois_partial 16 (fin (3 / 256)) (Or.inr (by norm_num))
  simp only [C09_ppois_double_violated.1] at h1
  rcases h2.1 with h3 | ⟨r, h3, -, h4⟩
  · rw [h3] at h1
    exact h1
  · rw [h3] at h1
    have : 1 + 1 / 2 ^ 52 ≤ r := h1
    norm_num at this
    linarith

/-! ### `qcauchy` -/

/-- `qcauchy` is the same for all probabilities below `2^-55`, though their quantiles are unbounded. -/
theorem C49_qcauchy_double_violated : ∃ v, (∀ p : ℝ, 0 < p → p < 1 / 2 ^ 55 → qcauchy (fin p) (fin 0) (fin 1) = v) ∧
    ∀ B : ℝ, ∃ p q : ℝ, 0 < p ∧ p < 1 / 2 ^ 55 ∧ q < B ∧ (∫ t in Set.Iic q, cauchyPdf 0 1 t) = p := by
  have hpi := Real.pi_pos
  refine ⟨fin 0 + fin 1 * Fl.tan (PI * fin (-(1 / 2))), fun p h0 h => ?_, fun B => ?_⟩
  · have h1 : p < 1 := h.trans (by norm_num)
    have e1 : fin p - half = fin (-(1 / 2)) := by
      rw [show (half : Fl) = fin (1 / 2) from rfl, dsub, R_neg_half (by linarith) (by linarith), ofE_coe]
    have n2 : ¬ p < 0 := by linarith
    have n3 : ¬ 1 < p := by linarith
    rw [← e1]
    simp [qcauchy, qcauchy_compute, cauchy_ok, prob_val_ok, n2, n3, h0.ne', h1.ne]
  · -- a point below `B` whose probability is small enough
    set q := min (B - 1) (-2 ^ 55)
    have hq : q ≤ -2 ^ 55 := min_le_right _ _
    refine ⟨1 / 2 + Real.arctan q / Real.pi, q, ?_, ?_, by linarith [min_le_left (B - 1) (-2 ^ 55)], ?_⟩
    · have := Real.neg_pi_div_two_lt_arctan q
      have : -(1 / 2) < Real.arctan q / Real.pi := by rw [lt_div_iff₀ hpi]; linarith
      linarith
    · have hq0 : 0 < -q := by linarith [show (0 : ℝ) < 2 ^ 55 by norm_num]
      have h1 : Real.arctan q = -(Real.pi / 2) + Real.arctan (-q)⁻¹ := by
        rw [Real.arctan_inv_of_pos hq0, Real.arctan_neg]; ring
      have h2 : Real.arctan (-q)⁻¹ < (-q)⁻¹ := by
        have := Real.lt_tan (Real.arctan_pos.2 (inv_pos.2 hq0)) (Real.arctan_lt_pi_div_two _)
        rwa [Real.tan_arctan] at this
      have h3 : (-q)⁻¹ ≤ 1 / 2 ^ 55 := by rw [one_div]; exact inv_anti₀ (by norm_num) (by linarith)
      have h4 : Real.arctan q / Real.pi < -(1 / 2) + 1 / 2 ^ 55 := by
        rw [div_lt_iff₀ hpi, h1]
        have := Real.pi_gt_three
        have h5 : (0 : ℝ) < 1 / 2 ^ 55 := by norm_num
        nlinarith
      linarith
    · rw [(isCdf_cauchy 0 one_pos).running]
      simp

end Stats.ExamplesC49

import Verif.Props.C20D
import Verif.Lemmas.Mills

/-!
# C20: `qpois` in binary64 at rates that do not fit `llint_t`
-/

set_option linter.unusedSectionVars false
open Classical
namespace Stats
open Fl Spec

section
open Double PoisDouble Out
set_option warn.classDefReducibility false in
attribute [local instance] doubleLib

/-- Binary64, any double from `2^63` on: the median is not computed, the conversion of the starting point to `llint_t` is
undefined. -/
theorem C20_qpois_double_violated {rate : ℝ} (hr : 2 ^ 63 ≤ rate) (hd : Double.R rate = rate) :
    qpoisT (fin (1 / 2)) (fin rate) = ub := by
  have hr0 : 0 < rate := lt_of_lt_of_le (by positivity) hr
  have h11 : ¬ rate < 11 := by norm_num at hr ⊢; linarith
  have he : Lib.eps ≤ rate := by
    have := Lib.eps_le
    norm_num at hr ⊢; linarith
  have R0 : R 0 = ((0 : ℝ) : EReal) := by
    have h := doubleRounding.zero
    rw [EReal.coe_zero]; exact h
  have R1 : R 1 = ((1 : ℝ) : EReal) := by simpa using R_two_pow 0 (by norm_num)
  have rbig : rate ≤ 2 ^ 1024 := by
    rw [R, if_pos hr0.le, Double.over] at hd
    split_ifs at hd with h
    · exact absurd hd (EReal.coe_ne_top _).symm
    · have : mag rate = rate := by exact_mod_cast hd
      linarith
  obtain ⟨s, s0, s1, es⟩ := R_fin (x := √rate) (B := 2 ^ 512) (Real.sqrt_nonneg _) (R_two_pow 512 (by norm_num)) (by
    rw [Real.sqrt_le_iff]; exact ⟨by positivity, rbig.trans (by rw [← pow_mul])⟩)
  have hs : sqrt (fin rate) = fin s := by
    show (if rate < 0 then nan else ofE (R √rate)) = _
    rw [if_neg (by linarith), es, ofE_coe]
  have s2 : 1 ≤ s := by
    have h := R_mono (Real.one_le_sqrt.2 (by linarith : 1 ≤ rate))
    rw [es, R1] at h
    exact_mod_cast h
  have hz : erfInv (2 * fin (1 / 2) - 1) = fin 0 := by
    rw [ofNat_eq, one_eq, DoubleArith.dmul]
    norm_num
    rw [R1, ofE_coe, DoubleArith.dsub, sub_self, R0, ofE_coe, erfInv]
    norm_num
    show ofE (R (invOn Spec.erf Set.univ 0)) = _
    have h := invOn_apply (strictMono_erf.injective.injOn (s := Set.univ)) (Set.mem_univ (0 : ℝ))
    rw [erf_zero] at h
    rw [h, R0, ofE_coe]
  have q0 := (Lib.sqrt2_pos : (0 : ℝ) < Lib.sqrt2)
  obtain ⟨a, a0, a1, ea⟩ := R_fin (x := Lib.sqrt2 * s) (B := 2 ^ 513) (by positivity) (R_two_pow 513 (by norm_num)) (by
    have := mul_le_mul sqrt2_le s1 s0 (by norm_num)
    have tp : (0 : ℝ) ≤ 2 ^ 512 := by positivity
    rw [pow_succ]; generalize (2 : ℝ) ^ 512 = t at *; linarith)
  have hq : qnorm (fin (1 / 2)) (fin rate) (sqrt (fin rate)) = fin rate := by
    have n1 : ¬ s < 0 := by linarith
    have n4 : s ≠ 0 := by linarith
    rw [hs, qnorm, if_neg (by simp [norm_ok, n1]), if_neg (by simp [prob_val_ok]; norm_num), if_neg (by simp),
      if_neg (by simp [n4]), if_neg (by simp), if_neg (by simp), qnorm_compute, hz, SQRT2, DoubleArith.dmul, ea,
      ofE_coe, DoubleArith.dmul, mul_zero, R0, ofE_coe, DoubleArith.dadd, add_zero, hd, ofE_coe]
  have b0 : (2 : ℝ) ^ 63 - 3 ≤ rate - 3 := by linarith
  have near : R ((2 : ℝ) ^ 63 - 3) = (((2 : ℝ) ^ 63 : ℝ) : EReal) := by
    have := R_near (x := 2 ^ 63 - 3) 62 (2 ^ 53) (by norm_num) (by norm_num) (by norm_num) (by norm_num) (by norm_num)
    rw [this]; norm_num
  obtain ⟨y, y0, y1, ey⟩ := R_fin (x := rate - 3) (B := rate) (by norm_num at b0 ⊢; linarith) hd (by linarith)
  have y2 : 2 ^ 63 ≤ y := by
    have h := R_mono b0
    rw [ey, near] at h
    exact_mod_cast h
  have e : Fl.max 0 (fin rate - 3) = fin y := by
    have e3 : fin rate - 3 = fin y := by
      rw [ofNat_eq, DoubleArith.dsub]
      norm_num
      rw [ey, ofE_coe]
    rw [e3]
    have : 0 < y := lt_of_lt_of_le (by positivity) y2
    simp [Fl.max, this]
  rw [qpoisT_unfold he (by norm_num) (by norm_num), if_neg h11, hq, e, llCast_fin y0, if_neg]
  · rfl
  · rw [not_le]
    have : (2 ^ 63 : ℤ) ≤ ⌊y⌋ := Int.le_floor.2 (by push_cast; linarith)
    omega

example : qpoisT (fin (1 / 2)) (fin (2 ^ 63)) = ub := C20_qpois_double_violated le_rfl (R_two_pow 63 (by norm_num))

theorem R_above {a x y : ℝ} (ha : Double.R a = (a : EReal)) (h : a ≤ x) (hx : Double.R x = (y : EReal)) : a ≤ y := by
  have := R_mono h
  rw [ha, hx] at this
  exact_mod_cast this

/-- the inverse error function at the greatest argument below 1, from below -/
theorem erfInv_ge : 5 ≤ invOn Spec.erf Set.univ (1 - 1 / 2 ^ 52) := by
  obtain ⟨x, hx⟩ := exists_erf (y := 1 - 1 / 2 ^ 52) (by norm_num) (by norm_num)
  have h := invOn_apply (strictMono_erf.injective.injOn (s := Set.univ)) (Set.mem_univ x)
  rw [hx] at h
  rw [h]
  by_contra hc
  have h2 := strictMono_erf (not_le.1 hc)
  have h3 := le_erfc (y := 5) (by norm_num)
  have h4 : (1 : ℝ) / 2 ^ 43 ≤ Real.exp (-5 ^ 2) := by
    rw [Real.exp_neg, ← one_div]
    apply one_div_le_one_div_of_le (by positivity)
    calc Real.exp (5 ^ 2) = Real.exp 1 ^ 25 := by rw [← Real.exp_nat_mul]; norm_num
      _ ≤ (28 / 10) ^ 25 := pow_le_pow_left₀ (by positivity) (by linarith [Real.exp_one_lt_d9]) 25
      _ ≤ 2 ^ 43 := by norm_num
  have h5 : √Real.pi ≤ 2 := Real.sqrt_le_iff.2 ⟨by norm_num, by linarith [Real.pi_le_four]⟩
  have h6 : 0 < √Real.pi := Real.sqrt_pos.2 Real.pi_pos
  have h7 : (1 : ℝ) / 16 ≤ 2 * 5 / (√Real.pi * (1 + 2 * 5 ^ 2)) := by
    rw [div_le_div_iff₀ (by norm_num) (by positivity)]
    nlinarith
  have h8 := mul_le_mul h7 h4 (by positivity) (by positivity)
  rw [hx] at h2
  norm_num at h2 h3 h8
  linarith

/-- Binary64, rates just below `2^63`: at the greatest double below 1 the starting point `qnorm(p, rate, sqrt(rate)) - 3` is
beyond the range of `llint_t`, and its conversion is undefined. -/
theorem C20_qpois_double_tail_violated {rate : ℝ} (hr : 2 ^ 63 - 2 ^ 34 ≤ rate) (hr' : rate ≤ 2 ^ 63) :
    qpoisT (fin (1 - 1 / 2 ^ 53)) (fin rate) = ub := by
  have hr0 : 0 < rate := lt_of_lt_of_le (by norm_num) hr
  have h11 : ¬ rate < 11 := by norm_num at hr ⊢; linarith
  have he : Lib.eps ≤ rate := by
    have := Lib.eps_le
    norm_num at hr ⊢; linarith
  have odd : ∀ (k : ℕ) (j : ℕ), 0 < k → k < 16 → j ≤ 100 → R (k * 2 ^ j) = ((k * 2 ^ j : ℝ) : EReal) := fun k j h1 h2 h3 =>
    R_odd k j (by rw [zpow_natCast]) h1 h2 (by omega) (by omega)
  -- the square root
  obtain ⟨s, s0, s1, es⟩ := R_fin (x := √rate) (B := 2 ^ 32) (Real.sqrt_nonneg _) (R_two_pow 32 (by norm_num)) (by
    rw [Real.sqrt_le_iff]; exact ⟨by positivity, hr'.trans (by norm_num)⟩)
  have s2 : 11 * 2 ^ 28 ≤ s := by
    refine R_above ?_ (Real.le_sqrt_of_sq_le (le_trans ?_ hr)) es
    · exact odd 11 28 (by norm_num) (by norm_num) (by norm_num)
    · norm_num
  have hs : sqrt (fin rate) = fin s := by
    show (if rate < 0 then nan else ofE (R √rate)) = _
    rw [if_neg (by linarith), es, ofE_coe]
  -- the argument of the inverse error function
  have e1 : R (2 * (1 - 1 / 2 ^ 53)) = ((2 - 1 / 2 ^ 52 : ℝ) : EReal) := by
    rw [show (2 : ℝ) * (1 - 1 / 2 ^ 53) = 2 - 1 / 2 ^ 52 by norm_num]
    refine R_of_mul (by norm_num) (k := 2 ^ 53 - 1) (j := -52) (by norm_num [zpow_neg]) ?_ ?_
    · have := q_le (x := 2 - 1 / 2 ^ 52) (by norm_num) (e := 0) (by norm_num) (by norm_num)
      omega
    · exact lt_big (by norm_num)
  have e2 : R (2 - 1 / 2 ^ 52 - 1) = ((1 - 1 / 2 ^ 52 : ℝ) : EReal) := by
    rw [show (2 : ℝ) - 1 / 2 ^ 52 - 1 = 1 - 1 / 2 ^ 52 by norm_num]
    refine R_of_mul (by norm_num) (k := 2 ^ 52 - 1) (j := -52) (by norm_num [zpow_neg]) ?_ ?_
    · have := q_le (x := 1 - 1 / 2 ^ 52) (by norm_num) (e := 0) (by norm_num) (by norm_num)
      omega
    · exact lt_big (by norm_num)
  have harg : 2 * fin (1 - 1 / 2 ^ 53) - 1 = fin (1 - 1 / 2 ^ 52) := by
    rw [ofNat_eq, one_eq, DoubleArith.dmul]
    push_cast
    rw [e1, ofE_coe, DoubleArith.dsub, e2, ofE_coe]
  -- the inverse error function
  obtain ⟨z, z0, z1, ez⟩ := R_fin (x := invOn Spec.erf Set.univ (1 - 1 / 2 ^ 52)) (B := 13 / 2) (by linarith [erfInv_ge])
    (R_odd 13 (-1) (by norm_num) (by norm_num) (by norm_num) (by norm_num) (by norm_num)) (erfInv_le le_rfl)
  have z2 : 5 ≤ z := R_above (by simpa using odd 5 0 (by norm_num) (by norm_num) (by norm_num)) erfInv_ge ez
  have hz : erfInv (fin (1 - 1 / 2 ^ 52)) = fin z := by
    rw [erfInv, if_neg (by norm_num), if_neg (by norm_num), if_neg (by norm_num)]
    show ofE (R (invOn Spec.erf Set.univ (1 - 1 / 2 ^ 52))) = _
    rw [ez, ofE_coe]
  -- the products
  have q0 := (Lib.sqrt2_pos : (0 : ℝ) < Lib.sqrt2)
  have q1 : (11 : ℝ) / 8 ≤ Lib.sqrt2 := by
    obtain ⟨y, -, -, e⟩ := R_fin (x := √2) (B := 3 / 2) (Real.sqrt_nonneg 2)
      (R_odd 3 (-1) (by norm_num) (by norm_num) (by norm_num) (by norm_num) (by norm_num))
      (Real.sqrt_le_iff.2 ⟨by norm_num, by norm_num⟩)
    have : (Lib.sqrt2 : ℝ) = (R √2).toReal := rfl
    rw [this, e, EReal.toReal_coe]
    exact R_above (R_odd 11 (-3) (by norm_num) (by norm_num) (by norm_num) (by norm_num) (by norm_num))
      (Real.le_sqrt_of_sq_le (by norm_num)) e
  obtain ⟨a, a0, a1, ea⟩ := R_fin (x := Lib.sqrt2 * s) (B := 2 ^ 33) (by positivity) (R_two_pow 33 (by norm_num)) (by
    have := mul_le_mul sqrt2_le s1 s0 (by norm_num)
    norm_num at this ⊢; linarith)
  have a2 : 15 * 2 ^ 28 ≤ a := by
    refine R_above (by exact_mod_cast odd 15 28 (by norm_num) (by norm_num) (by norm_num)) ?_ ea
    have := mul_le_mul q1 s2 (by positivity) q0.le
    norm_num at this ⊢; linarith
  obtain ⟨b, b0, b1, eb⟩ := R_fin (x := a * z) (B := 2 ^ 36) (by positivity) (R_two_pow 36 (by norm_num)) (by
    have := mul_le_mul a1 z1 z0 (by positivity)
    norm_num at this ⊢; linarith)
  have b2 : 9 * 2 ^ 31 ≤ b := by
    refine R_above (by exact_mod_cast odd 9 31 (by norm_num) (by norm_num) (by norm_num)) ?_ eb
    have := mul_le_mul a2 z2 (by positivity) a0
    norm_num at this ⊢; linarith
  -- the starting point
  have hB : R (2 ^ 63 + 2 ^ 31) = ((2 ^ 63 + 2 ^ 31 : ℝ) : EReal) := by
    refine R_of_mul (by norm_num) (k := 2 ^ 32 + 1) (j := 31) (by norm_num) ?_ ?_
    · have := q_le (x := 2 ^ 63 + 2 ^ 31) (by norm_num) (e := 63) (by norm_num) (by norm_num)
      omega
    · exact lt_of_lt_of_le (b := 2 ^ 64) (by norm_num) (pow_le_pow_right₀ (by norm_num) (by norm_num))
  obtain ⟨c, c0, c1, ec⟩ := R_fin (x := rate + b) (B := 2 ^ 64) (by positivity) (R_two_pow 64 (by norm_num)) (by
    norm_num at hr' b1 ⊢; linarith)
  have c2 : 2 ^ 63 + 2 ^ 31 ≤ c := R_above hB (by norm_num at hr b2 ⊢; linarith) ec
  have hq : qnorm (fin (1 - 1 / 2 ^ 53)) (fin rate) (sqrt (fin rate)) = fin c := by
    have n1 : ¬ s < 0 := by linarith
    have n4 : s ≠ 0 := by norm_num at s2; linarith
    rw [hs, qnorm, if_neg (by simp [norm_ok, n1]), if_neg (by simp [prob_val_ok]; norm_num), if_neg (by simp),
      if_neg (by simp [n4]), if_neg (by simp; norm_num), if_neg (by simp), qnorm_compute, harg, hz, SQRT2, DoubleArith.dmul, ea,
      ofE_coe, DoubleArith.dmul, eb, ofE_coe, DoubleArith.dadd, ec, ofE_coe]
  obtain ⟨y, y0, y1, ey⟩ := R_fin (x := c - 3) (B := 2 ^ 64) (by norm_num at c2; linarith) (R_two_pow 64 (by norm_num)) (by linarith)
  have y2 : 2 ^ 63 ≤ y := R_above (R_two_pow 63 (by norm_num)) (by norm_num at c2 ⊢; linarith) ey
  have e : Fl.max 0 (fin c - 3) = fin y := by
    have e3 : fin c - 3 = fin y := by
      rw [ofNat_eq, DoubleArith.dsub]
      norm_num
      rw [ey, ofE_coe]
    rw [e3]
    have : 0 < y := lt_of_lt_of_le (by positivity) y2
    simp [Fl.max, this]
  rw [qpoisT_unfold he (by norm_num) (by norm_num), if_neg h11, hq, e, llCast_fin y0, if_neg]
  · rfl
  · rw [not_le]
    have : (2 ^ 63 : ℤ) ≤ ⌊y⌋ := Int.le_floor.2 (by push_cast; linarith)
    omega

example : qpoisT (fin (1 - 1 / 2 ^ 53)) (fin (2 ^ 63 - 2 ^ 33)) = ub :=
  C20_qpois_double_tail_violated (by norm_num) (by norm_num)

end
end Stats

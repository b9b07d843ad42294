import Verif.Props.C49F

/-!
# C09, C10 in binary64: `pbinom` above 1

The library functions are correctly rounded (`doubleLib`), the most favourable case. `1 - prob` is rounded and the terms
of the sum are computed from the rounded value and from `prob` itself, so their sum need not be at most 1.
-/

open Classical
namespace Stats.ExamplesC49
open Fl Spec DoubleArith
set_option warn.classDefReducibility false in
attribute [local instance] doubleLib

/-! ### `pbinom` -/

/-- `R_pos` for negative numbers -/
theorem R_negp {x : ℝ} (h1 : 1 / 2 ^ 100 ≤ x) (h2 : x ≤ 2 ^ 100) : ∃ y, ofE (Double.R (-x)) = fin (-y) ∧
    x * (1 - 1 / 2 ^ 53) ≤ y ∧ y ≤ x * (1 + 1 / 2 ^ 53) := by
  obtain ⟨y, e, a, b⟩ := R_pos h1 (le_big h2)
  exact ⟨y, by rw [Double.R_neg, e, ← EReal.coe_neg, ofE_coe], a, b⟩

theorem R_posp {x : ℝ} (h1 : 1 / 2 ^ 100 ≤ x) (h2 : x ≤ 2 ^ 100) : ∃ y, ofE (Double.R x) = fin y ∧
    x * (1 - 1 / 2 ^ 53) ≤ y ∧ y ≤ x * (1 + 1 / 2 ^ 53) := by
  obtain ⟨y, e, a, b⟩ := R_pos h1 (le_big h2)
  exact ⟨y, by rw [e, ofE_coe], a, b⟩

theorem dbinom_eq {x n : ℤ} {p : ℝ} (h0 : 0 ≤ p) (h1 : p ≤ 1) (hn : 2 ≤ n) (hx : 0 ≤ x) (hx' : x ≤ n) :
    dbinom x n (fin p) false = Fl.exp (dbinom_log_compute x n (fin p)) := by
  have n1 : ¬ p < 0 := h0.not_gt
  have n2 : ¬ 1 < p := h1.not_gt
  have n3 : ¬ n < 0 := by omega
  have hok : binom_ok n (fin p) := by simp [binom_ok, n1, n2, n3, zero_eq, one_eq]
  rw [dbinom, if_neg (not_not.2 hok), if_neg (by omega), if_neg (by omega), if_neg (by omega)]
  rfl

set_option maxHeartbeats 600000 in
/-- the argument: `2^-30 + 2^-54` -/
theorem pbinom_above : ∃ y, pbinom_compute 3 (fin ((2 ^ 24 + 1) / 2 ^ 54)) 2 0 = fin y ∧ 1 + 1 / 2 ^ 52 ≤ y ∧ y ≤ 2 := by
  have k1 : (ofInt 1 : Fl) = fin 1 := by show ofE (Double.R _) = _; rw [R_int 1 (by norm_num), ofE_coe]; norm_num
  have k2 : (ofInt 2 : Fl) = fin 2 := by show ofE (Double.R _) = _; rw [R_int 2 (by norm_num), ofE_coe]; norm_num
  have k3 : (ofInt 3 : Fl) = fin 3 := by show ofE (Double.R _) = _; rw [R_int 3 (by norm_num), ofE_coe]; norm_num
  -- `1 - p` is a tie, broken downwards
  have e1 : (1 : Fl) - fin ((2 ^ 24 + 1) / 2 ^ 54) = fin (1 - 1 / 2 ^ 30) := by
    rw [one_eq, dsub, Double.R_tie (-1) (2 ^ 53 - 2 ^ 23) (by norm_num) (by norm_num) (by norm_num) (by norm_num)
      (by decide +kernel) (by norm_num), ofE_coe]
    norm_num
  obtain ⟨l, el, l1, l2⟩ : ∃ l, Fl.log (fin (1 - 1 / 2 ^ 30)) = fin (-l) ∧ 1 / 2 ^ 31 ≤ l ∧
      l ≤ 1 / 2 ^ 30 * (1 + 1 / 2 ^ 29) := by
    have a := Real.log_le_sub_one_of_pos (x := 1 - 1 / 2 ^ 30) (by norm_num)
    have b := Real.one_sub_inv_le_log_of_pos (x := 1 - 1 / 2 ^ 30) (by norm_num)
    obtain ⟨l, el, c, d⟩ := R_negp (x := -Real.log (1 - 1 / 2 ^ 30)) (by norm_num at a ⊢; linarith) (by norm_num at b ⊢; linarith)
    refine ⟨l, ?_, ?_, ?_⟩
    · rw [log_fin, if_neg (by norm_num), if_neg (by norm_num)]
      rw [neg_neg] at el
      exact el
    · norm_num at a c ⊢; linarith
    · norm_num at b d ⊢; linarith
  -- the first term
  obtain ⟨l3, e3, l3a, l3b⟩ := R_negp (x := 3 * l) (by norm_num at l1 ⊢; linarith) (by norm_num at l2 ⊢; linarith)
  have x1 : 1 - 3 / 2 ^ 30 - 1 / 2 ^ 57 ≤ Real.exp (-l3) := by
    have := Real.add_one_le_exp (-l3)
    norm_num at l2 l3b ⊢
    linarith
  have x2 : Real.exp (-l3) ≤ 1 := Real.exp_le_one_iff.2 (by norm_num at l1 l3a ⊢; linarith)
  obtain ⟨d0, ed0, d0a⟩ : ∃ d0, Double.R (Real.exp (-l3)) = ((d0 : ℝ) : EReal) ∧ d0 ≤ Real.exp (-l3) * (1 + 1 / 2 ^ 53) := by
    obtain ⟨d0, e, -, b⟩ := R_pos (x := Real.exp (-l3)) (le_trans (by norm_num) x1) (le_big (x2.trans (by norm_num)))
    exact ⟨d0, e, b⟩
  have d0l : 1 - 3 / 2 ^ 30 ≤ d0 := by
    have := Double.R_mono x1
    rw [Double.R_near (-1) (2 ^ 53 - 3 * 2 ^ 23) (by norm_num) (by norm_num) (by norm_num) (by norm_num) (by norm_num [abs_lt]),
      ed0] at this
    have : ((2 ^ 53 - 3 * 2 ^ 23 : ℤ) : ℝ) * 2 ^ (-1 - 52 : ℤ) ≤ d0 := by exact_mod_cast this
    norm_num at this ⊢
    exact this
  have d0u : d0 ≤ 1.1 := by norm_num at d0a ⊢; linarith
  have h0 : dbinom 0 3 (fin ((2 ^ 24 + 1) / 2 ^ 54)) false = fin d0 := by
    rw [dbinom_eq (by norm_num) (by norm_num) (by norm_num) (by norm_num) (by norm_num), dbinom_log_compute, if_pos rfl, e1, el, k3, dmul, mul_neg, e3]
    show ofE (Double.R (Real.exp (-l3))) = _
    rw [ed0, ofE_coe]
  -- the logarithm of `p`
  have lp1 : 20 ≤ -Real.log ((2 ^ 24 + 1) / 2 ^ 54) := by
    have : Real.log ((2 ^ 24 + 1) / 2 ^ 54) ≤ Real.log ((1 / 2) ^ 29) := Real.log_le_log (by norm_num) (by norm_num)
    rw [Real.log_pow, one_div, Real.log_inv] at this
    have := Real.log_two_gt_d9
    norm_num at *
    linarith
  have lp2 : -Real.log ((2 ^ 24 + 1) / 2 ^ 54) ≤ 20.8 := by
    have : Real.log ((1 / 2) ^ 30) ≤ Real.log ((2 ^ 24 + 1) / 2 ^ 54) := Real.log_le_log (by norm_num) (by norm_num)
    rw [Real.log_pow, one_div, Real.log_inv] at this
    have := Real.log_two_lt_d9
    norm_num at *
    linarith
  obtain ⟨m, em, ma, mb⟩ := R_negp (le_trans (by norm_num) lp1) (le_trans lp2 (by norm_num))
  have elp : Fl.log (fin ((2 ^ 24 + 1) / 2 ^ 54)) = fin (-m) := by
    rw [log_fin, if_neg (by norm_num), if_neg (by norm_num)]
    rw [neg_neg] at em
    exact em
  have m1 : 19.9 ≤ m := by norm_num at ma ⊢; linarith
  have m2 : m ≤ 20.9 := by norm_num at mb ⊢; linarith
  obtain ⟨m', em', ma', mb'⟩ := R_negp (x := 1 * m) (by norm_num; linarith) (by norm_num; linarith)
  rw [one_mul] at ma' mb'
  have lg3 : 1 ≤ Real.log 3 := by
    rw [Real.le_log_iff_exp_le (by norm_num)]; linarith [Real.exp_one_lt_d9]
  have lg3' : Real.log 3 ≤ 2 := by
    have := Real.log_le_sub_one_of_pos (x := 3) (by norm_num)
    linarith
  obtain ⟨c, ec, ca, cb⟩ := R_posp (x := Real.log 3) (le_trans (by norm_num) lg3) (lg3'.trans (by norm_num))
  have lb1 : lbinom 3 1 = fin c := by
    have hc : (Int.toNat 3).choose (Int.toNat 1) = 3 := rfl
    show ofE (Double.R (Real.log (((Int.toNat 3).choose (Int.toNat 1) : ℕ) : ℝ))) = _
    rw [hc, ← ec, Nat.cast_ofNat]
  have lb2 : lbinom 3 2 = fin c := by
    have hc : (Int.toNat 3).choose (Int.toNat 2) = 3 := rfl
    show ofE (Double.R (Real.log (((Int.toNat 3).choose (Int.toNat 2) : ℕ) : ℝ))) = _
    rw [hc, ← ec, Nat.cast_ofNat]
  -- the second term
  obtain ⟨g, eg, ga, gb⟩ := R_negp (x := m' - c) (by norm_num at ma' cb ⊢; linarith) (by norm_num at mb' ca ⊢; linarith)
  obtain ⟨l2', el2, l2a, l2b⟩ := R_negp (x := 2 * l) (by norm_num at l1 ⊢; linarith) (by norm_num at l2 ⊢; linarith)
  obtain ⟨h, eh, ha, hb⟩ := R_negp (x := g + l2') (by norm_num at ga l2a ma' cb l1 ⊢; linarith)
    (by norm_num at gb l2b mb' ca l2 ⊢; linarith)
  have hh : h ≤ -Real.log ((2 ^ 24 + 1) / 2 ^ 54) - Real.log 3 + 2.1 / 2 ^ 30 := by
    norm_num at hb gb l2b mb' ca l2 mb lg3' lp2 m2 ⊢
    linarith
  have h2 : 10 ≤ h := by
    norm_num at ha ga l2a ma' cb l1 m1 ⊢
    linarith
  have y1 : 3 / 2 ^ 30 + 2.6 / 2 ^ 54 ≤ Real.exp (-h) := by
    have a : Real.exp (Real.log ((2 ^ 24 + 1) / 2 ^ 54) + Real.log 3 + -(2.1 / 2 ^ 30)) ≤ Real.exp (-h) :=
      Real.exp_le_exp.2 (by linarith)
    rw [Real.exp_add, Real.exp_add, Real.exp_log (by norm_num), Real.exp_log (by norm_num)] at a
    have b := Real.add_one_le_exp (-(2.1 / 2 ^ 30) : ℝ)
    refine le_trans ?_ a
    refine le_trans ?_ (mul_le_mul_of_nonneg_left b (by norm_num))
    norm_num
  have y2 : Real.exp (-h) ≤ 1 / 10 := by
    rw [Real.exp_neg, inv_le_comm₀ (Real.exp_pos _) (by norm_num)]
    have := Real.add_one_le_exp h
    norm_num
    linarith
  obtain ⟨d1, ed1, d1a, d1b⟩ := R_posp (le_trans (by norm_num) y1) (y2.trans (by norm_num))
  have h1 : dbinom 1 3 (fin ((2 ^ 24 + 1) / 2 ^ 54)) false = fin d1 := by
    rw [dbinom_eq (by norm_num) (by norm_num) (by norm_num) (by norm_num) (by norm_num), dbinom_log_compute, if_neg (by norm_num), if_neg (by norm_num), e1, el, elp, lb1, k1,
      show (3 - 1 : ℤ) = 2 by norm_num, k2, dmul, mul_neg, em', dadd, show c + -m' = -(m' - c) by ring, eg, dmul, mul_neg, el2, dadd,
      ← neg_add, eh]
    exact ed1
  -- the third term
  obtain ⟨n, en, na, nb⟩ := R_negp (x := 2 * m) (by norm_num; linarith) (by norm_num; linarith)
  obtain ⟨o, eo, oa, ob⟩ := R_negp (x := n - c) (by norm_num at na cb ⊢; linarith) (by norm_num at nb ca ⊢; linarith)
  obtain ⟨l', el', la', lb'⟩ := R_negp (x := 1 * l) (by norm_num at l1 ⊢; linarith) (by norm_num at l2 ⊢; linarith)
  obtain ⟨q, eq, qa, qb⟩ := R_negp (x := o + l') (by norm_num at oa la' na cb l1 ⊢; linarith)
    (by norm_num at ob lb' nb ca l2 ⊢; linarith)
  have q1 : 10 ≤ q := by norm_num at qa oa la' na cb l1 ⊢; linarith
  have q2 : q ≤ (60 : ℕ) := by norm_num at qb ob lb' nb ca l2 ⊢; linarith
  have z1 : 1 / 2 ^ 100 ≤ Real.exp (-q) := by
    rw [Real.exp_neg, one_div]
    refine inv_anti₀ (Real.exp_pos _) ((Real.exp_le_exp.2 q2).trans ((exp_pow_bounds 60).2.trans ?_))
    calc (2.7182818286 : ℝ) ^ 60 ≤ 3 ^ 60 := by gcongr; norm_num
      _ ≤ 2 ^ 100 := by norm_num
  have z2 : Real.exp (-q) ≤ 1 / 10 := by
    rw [Real.exp_neg, inv_le_comm₀ (Real.exp_pos _) (by norm_num)]
    have := Real.add_one_le_exp q
    norm_num
    linarith
  obtain ⟨d2, ed2, d2a, d2b⟩ := R_posp z1 (z2.trans (by norm_num))
  have h3 : dbinom 2 3 (fin ((2 ^ 24 + 1) / 2 ^ 54)) false = fin d2 := by
    rw [dbinom_eq (by norm_num) (by norm_num) (by norm_num) (by norm_num) (by norm_num), dbinom_log_compute, if_neg (by norm_num), if_neg (by norm_num), e1, el, elp, lb2, k2,
      show (3 - 2 : ℤ) = 1 by norm_num, k1, dmul, mul_neg, en, dadd, show c + -n = -(n - c) by ring, eo, dmul, mul_neg, el', dadd,
      ← neg_add, eq]
    exact ed2
  -- the sums
  have z0 := Real.exp_pos (-q)
  have d2p : 0 ≤ d2 := le_trans (by positivity) d2a
  obtain ⟨s, es, sa, sb⟩ := R_posp (x := d1 + d2) (by norm_num at d1a y1 ⊢; linarith) (by norm_num at d1b d2b ⊢; linarith)
  have s1 : 3 / 2 ^ 30 + 2.5 / 2 ^ 54 ≤ s := by norm_num at sa d1a y1 ⊢; linarith
  have s2 : s ≤ 0.3 := by norm_num at sb d1b d2b ⊢; linarith
  have u1 : 1 + 2.5 / 2 ^ 54 ≤ d0 + s := by norm_num at d0l s1 ⊢; linarith
  obtain ⟨y, ey, ya, yb⟩ := R_pos (x := d0 + s) (le_trans (by norm_num) u1) (le_big (by norm_num at d0u s2 ⊢; linarith))
  refine ⟨y, ?_, ?_, ?_⟩
  · show dbinom 0 3 _ false + (dbinom (0 + 1) 3 _ false + dbinom (0 + 1 + 1) 3 _ false) = _
    rw [zero_add, one_add_one_eq_two, h0, h1, h3, dadd, es, dadd, ey, ofE_coe]
  · have := Double.R_mono u1
    rw [Double.R_near 0 (2 ^ 52 + 1) (by norm_num) (by norm_num) (by norm_num) (by norm_num) (by norm_num [abs_lt]), ey] at this
    have : ((2 ^ 52 + 1 : ℤ) : ℝ) * 2 ^ (0 - 52 : ℤ) ≤ y := by exact_mod_cast this
    norm_num at this ⊢
    exact this
  · norm_num at yb d0u s2 ⊢
    linarith

/-- With `p = 2^-30 + 2^-54`, `pbinom(2, 3, p)` is above 1; its logarithm is positive. -/
theorem C09_pbinom_double_violated : (∃ y, pbinom 2 3 (fin ((2 ^ 24 + 1) / 2 ^ 54)) false = fin y ∧ 1 + 1 / 2 ^ 52 ≤ y) ∧
    fin 0 < pbinom 2 3 (fin ((2 ^ 24 + 1) / 2 ^ 54)) true := by
  obtain ⟨y, e, h1, h2⟩ := pbinom_above
  have hv : ∀ b, pbinom 2 3 (fin ((2 ^ 24 + 1) / 2 ^ 54)) b = log_if (fin y) b := fun b => by
    have n1 : ¬ ((2 ^ 24 + 1) / 2 ^ 54 : ℝ) < 0 := by norm_num
    have n2 : ¬ 1 < ((2 ^ 24 + 1) / 2 ^ 54 : ℝ) := by norm_num
    have hok : binom_ok 3 (fin ((2 ^ 24 + 1) / 2 ^ 54)) := by simp only [binom_ok]; simp [n1, n2, zero_eq, one_eq]
    rw [pbinom, if_neg (not_not.2 hok), if_neg (by norm_num), if_neg (by norm_num), if_neg (by norm_num)]
    show log_if (pbinom_compute 3 _ 2 0) b = _
    rw [e]
  exact ⟨⟨y, by rw [hv]; rfl, h1⟩, by rw [hv]; exact log_pos_of h1 h2⟩

/-- ... and `pbinom(3, 3, p)` is 1: not monotone -/
theorem C10_pbinom_double_violated : ¬ MonoCdfZ fun k => pbinom k 3 (fin ((2 ^ 24 + 1) / 2 ^ 54)) := by
  intro h
  obtain ⟨⟨y, e, h1⟩, -⟩ := C09_pbinom_double_violated
  have := h 2 3 (by norm_num) false
  have n1 : ¬ ((2 ^ 24 + 1) / 2 ^ 54 : ℝ) < 0 := by norm_num
  have n2 : ¬ 1 < ((2 ^ 24 + 1) / 2 ^ 54 : ℝ) := by norm_num
  have hok : binom_ok 3 (fin ((2 ^ 24 + 1) / 2 ^ 54)) := by simp only [binom_ok]; simp [n1, n2, zero_eq, one_eq]
  have h3 : pbinom 3 3 (fin ((2 ^ 24 + 1) / 2 ^ 54)) false = fin 1 := by
    rw [pbinom, if_neg (not_not.2 hok), if_neg (by norm_num), if_pos (by norm_num), one_eq]; rfl
  simp only [e, h3] at this
  have : y ≤ 1 := this
  norm_num at h1
  linarith
end Stats.ExamplesC49

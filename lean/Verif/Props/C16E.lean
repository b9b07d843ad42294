import Verif.Props.C16B

/-!
# C16: `qunif` in binary64

For doubles `a < b` and a double `p` the value `a + p*(b-a)` never passes `b`, unless `b - a` overflows.
-/

set_option linter.unusedSectionVars false
open Classical
namespace Stats.Double
open Fl Spec PoisDouble

/-- The significand has at most 53 bits, and rounding up to the next power of two is included. -/
theorem mag_form {x : ℝ} (hx : 0 < x) : ∃ n : ℤ, 0 ≤ n ∧ n ≤ 2 ^ 53 ∧ mag x = n * 2 ^ q x ∧ rne (x / 2 ^ q x) = n := by
  refine ⟨rne (x / 2 ^ q x), ?_, ?_, by rw [mag, if_neg hx.not_ge], rfl⟩
  · have := zpow_pos' (q x)
    exact le_rne (by push_cast; positivity)
  · apply rne_le_int
    have h1 := (Int.lt_zpow_succ_log_self (b := 2) (by norm_num) x).le
    rw [div_le_iff₀ (zpow_pos' _)]
    push_cast at h1 ⊢
    rw [show (9007199254740992 : ℝ) = 2 ^ (53 : ℤ) by norm_num, ← zpow_add₀ (by norm_num)]
    refine h1.trans (zpow_le_zpow_right₀ (by norm_num) ?_)
    have : q x = Max.max (Int.log 2 x - 52) (-1074) := rfl
    omega

theorem q_ge (x : ℝ) : -1074 ≤ q x := le_max_right _ _

theorem mag_mag (x : ℝ) : mag (mag x) = mag x := by
  by_cases hx : x ≤ 0
  · have : mag x = 0 := if_pos hx
    rw [this, mag_zero]
  have hx := not_le.1 hx
  obtain ⟨n, n0, n1, hm, -⟩ := mag_form hx
  rcases n0.eq_or_lt with rfl | n0
  · rw [Int.cast_zero, zero_mul] at hm
    rw [hm, mag_zero]
  have np : (0 : ℝ) < n := by exact_mod_cast n0
  have hp : 0 < mag x := by rw [hm]; exact mul_pos np (zpow_pos' _)
  have hq := q_ge x
  rcases n1.eq_or_lt with rfl | n1
  · have e : mag x = ((1 : ℤ) : ℝ) * 2 ^ (q x + 53) := by
      rw [hm, zpow_add₀ (by norm_num), zpow_ofNat]; push_cast; ring
    refine mag_of_mul hp e ?_
    have := q_le hp (e := q x + 53) (by
      rw [e, Int.cast_one, one_mul]
      exact zpow_lt_zpow_right₀ (by norm_num) (by omega)) (by omega)
    omega
  · refine mag_of_mul hp hm ?_
    have := q_le hp (e := q x + 52) (by
      rw [hm, show q x + 52 + 1 = 53 + q x by ring, zpow_add₀ (by norm_num), zpow_ofNat]
      have : (n : ℝ) < 2 ^ 53 := by exact_mod_cast n1
      exact mul_lt_mul_of_pos_right this (zpow_pos' _)) (by omega)
    omega

theorem R_coe {x y : ℝ} (h0 : 0 ≤ x) (h : R x = (y : EReal)) : mag x = y ∧ y < 2 ^ 1024 := by
  rw [R, if_pos h0, Double.over] at h
  split_ifs at h with h1
  · exact absurd h.symm (EReal.coe_ne_top _)
  · have : mag x = y := by exact_mod_cast h
    exact ⟨this, by rw [← this]; exact not_le.1 h1⟩

theorem R_R {x y : ℝ} (h0 : 0 ≤ x) (h : R x = (y : EReal)) : R y = (y : EReal) := by
  obtain ⟨h1, h2⟩ := R_coe h0 h
  have y0 : 0 ≤ y := by rw [← h1]; exact mag_nonneg x
  rw [R, if_pos y0, ← h1, mag_mag, h1, Double.over, if_neg h2.not_ge]

/-- Every double is an integral multiple of the smallest one. -/
theorem double_mul {a : ℝ} (h : R a = (a : EReal)) : ∃ k : ℤ, a = k * 2 ^ (-1074 : ℤ) := by
  have pos : ∀ a : ℝ, 0 < a → R a = (a : EReal) → ∃ k : ℤ, a = k * 2 ^ (-1074 : ℤ) := by
    intro a ha h
    obtain ⟨h1, -⟩ := R_coe ha.le h
    obtain ⟨n, -, -, hm, -⟩ := mag_form ha
    obtain ⟨j, hj⟩ := Int.eq_ofNat_of_zero_le (sub_nonneg.2 (q_ge a))
    refine ⟨n * 2 ^ j, ?_⟩
    rw [← h1, hm, show q a = j + -1074 by omega, zpow_add₀ (by norm_num)]
    push_cast; rw [zpow_natCast]; ring
  rcases lt_trichotomy a 0 with ha | rfl | ha
  · obtain ⟨k, hk⟩ := pos (-a) (by linarith) (by rw [R_neg, h, EReal.coe_neg])
    exact ⟨-k, by push_cast; linarith⟩
  · exact ⟨0, by simp⟩
  · exact pos a ha h

/-- The largest double below 1. -/
theorem double_lt_one {p : ℝ} (h : R p = (p : EReal)) (h1 : p < 1) : p ≤ 1 - 1 / 2 ^ 53 := by
  by_contra hc
  have hc := not_le.1 hc
  have p0 : 0 < p := lt_trans (by norm_num) hc
  obtain ⟨hm, -⟩ := R_coe p0.le h
  obtain ⟨n, -, -, hn, -⟩ := mag_form p0
  have hq : q p = -53 := q_eq (e := -1) (by norm_num; linarith) (by norm_num; exact h1) (by norm_num)
  rw [hm, hq] at hn
  have e : (2 : ℝ) ^ (-53 : ℤ) = 1 / 2 ^ 53 := by norm_num
  rw [e] at hn
  have a : (n : ℝ) < 2 ^ 53 := by
    rw [hn] at h1
    rw [mul_one_div, div_lt_one (by positivity)] at h1; exact h1
  have b : (2 : ℝ) ^ 53 - 1 < n := by
    rw [hn] at hc
    rw [mul_one_div, lt_div_iff₀ (by positivity)] at hc
    norm_num at hc ⊢; linarith
  have a' : n < 2 ^ 53 := by exact_mod_cast a
  have b' : (2 ^ 53 - 1 : ℤ) < n := by exact_mod_cast b
  omega

theorem rne_dist (z : ℝ) : (rne z : ℝ) - z ≤ 1 / 2 := by
  have h1 := Int.floor_add_fract z
  have h2 := Int.fract_lt_one z
  have h3 := Int.fract_nonneg z
  rw [rne]
  split_ifs <;> push_cast <;> linarith

/-- `a + p*(b-a)` does not pass `b`. -/
theorem lerp_le {a b p D y : ℝ} (hab : a < b) (ha : R a = (a : EReal)) (hb : R b = (b : EReal))
    (hp : R p = (p : EReal)) (p0 : 0 < p) (p1 : p < 1) (hD : R (b - a) = (D : EReal)) (hy : R (p * D) = (y : EReal)) :
    a + y ≤ b := by
  have x0 : 0 < b - a := by linarith
  obtain ⟨mD, D1⟩ := R_coe x0.le hD
  have D0 : 0 ≤ D := by rw [← mD]; exact mag_nonneg _
  have RD := R_R x0.le hD
  have yD : y ≤ D := by
    have := R_mono (show p * D ≤ D by nlinarith)
    rw [hy, RD] at this; exact_mod_cast this
  rcases le_or_gt D (b - a) with h | h
  · linarith
  by_contra hc
  have hc : b - a < y := by linarith [not_le.1 hc]
  have z0 : 0 ≤ p * D := by positivity
  have Ry := R_R z0 hy
  have Dy : D ≤ y := by
    have := R_mono hc.le
    rw [hD, Ry] at this; exact_mod_cast this
  have e : y = D := le_antisymm yD Dy
  subst e
  have zp : 0 < p * y := mul_pos p0 (x0.trans h)
  obtain ⟨mz, -⟩ := R_coe z0 hy
  obtain ⟨n, n0, -, hm, hn⟩ := mag_form zp
  have hq := q_ge (p * y)
  have hpp := double_lt_one hp p1
  have hyn : y = n * 2 ^ q (p * y) := by rw [← hm, mz]
  have t := zpow_pos' (q (p * y))
  have d := rne_dist (p * y / 2 ^ q (p * y))
  rw [hn] at d
  have n52 : (n : ℝ) ≤ 2 ^ 52 := by
    have h1 : p * y / 2 ^ q (p * y) = p * n := by
      rw [div_eq_iff t.ne']
      conv_lhs => rw [hyn]
      rw [mul_assoc]
    rw [h1] at d
    have hn' : (0 : ℝ) ≤ n := by exact_mod_cast n0
    have : p * n ≤ (1 - 1 / 2 ^ 53) * n := mul_le_mul_of_nonneg_right hpp hn'
    norm_num at this d ⊢
    linarith
  rcases (show q (p * y) = Int.log 2 (p * y) - 52 ∨ q (p * y) = -1074 by
    have : q (p * y) = Max.max (Int.log 2 (p * y) - 52) (-1074) := rfl
    omega) with h3 | h3
  · have h4 : (2 : ℝ) ^ Int.log 2 (p * y) ≤ p * y := by
      have := Int.zpow_log_le_self (b := 2) (by norm_num) zp
      exact_mod_cast this
    have h5 : y ≤ 2 ^ Int.log 2 (p * y) := by
      rw [show Int.log 2 (p * y) = 52 + q (p * y) by omega, zpow_add₀ (by norm_num), zpow_ofNat]
      conv_lhs => rw [hyn]
      exact mul_le_mul_of_nonneg_right n52 t.le
    nlinarith [x0.trans h]
  · obtain ⟨k, hk⟩ := double_mul ha
    obtain ⟨l, hl⟩ := double_mul hb
    have hx : b - a = ((l - k : ℤ) : ℝ) * 2 ^ (-1074 : ℤ) := by rw [hk, hl]; push_cast; ring
    have hlt : b - a < 2 ^ ((-1022 : ℤ) + 1) := by
      refine h.trans_le ?_
      have : y ≤ 2 ^ (52 : ℤ) * 2 ^ (-1074 : ℤ) := by
        rw [hyn, h3, zpow_ofNat]
        exact mul_le_mul_of_nonneg_right n52 (zpow_pos' _).le
      rw [← zpow_add₀ (by norm_num)] at this
      exact this.trans (zpow_le_zpow_right₀ (by norm_num) (by norm_num))
    have := mag_of_mul x0 hx (by have := q_le x0 hlt le_rfl; omega)
    rw [mD] at this
    linarith

end Stats.Double

namespace Stats.C16Double
open Fl Spec Double PoisDouble
set_option warn.classDefReducibility false in
attribute [local instance] doubleLib

/-- Binary64: for doubles `a < b` whose difference does not overflow, `qunif` is monotone on the doubles of `[0,1]`. -/
theorem C16_unif_double {a b : ℝ} (hab : a < b) (ha : R a = (a : EReal)) (hb : R b = (b : EReal))
    (hd : R (b - a) ≠ ⊤) :
    qunif (fin 0) (fin a) (fin b) = fin a ∧ qunif (fin 1) (fin a) (fin b) = fin b ∧
    ∀ u v : ℝ, R u = (u : EReal) → 0 ≤ u → u ≤ v → v ≤ 1 →
      qunif (fin u) (fin a) (fin b) ≤ qunif (fin v) (fin a) (fin b) := by
  have h2 : ¬ b ≤ a := by linarith
  have e0 : qunif (fin 0) (fin a) (fin b) = fin a := by simp [qunif, unif_ok, prob_val_ok, h2]
  have e1 : qunif (fin 1) (fin a) (fin b) = fin b := by simp [qunif, unif_ok, prob_val_ok, h2]
  refine ⟨e0, e1, fun u v hu u0 huv v1 => ?_⟩
  rcases v1.eq_or_lt with rfl | v1
  · rw [e1]
    rcases u0.eq_or_lt with rfl | u0
    · rw [e0]; simpa using hab.le
    rcases huv.eq_or_lt with rfl | u1
    · rw [e1]; simp
    have x0 : 0 ≤ b - a := by linarith
    obtain ⟨D, hD⟩ : ∃ D : ℝ, R (b - a) = (D : EReal) := by
      have h0 := R_nonneg x0
      revert h0 hd
      generalize R (b - a) = w
      intro hd h0
      induction w using EReal.rec with
      | bot => simp at h0
      | top => exact absurd rfl hd
      | coe y => exact ⟨y, rfl⟩
    have D0 : 0 ≤ D := by rw [← (R_coe x0 hD).1]; exact mag_nonneg _
    obtain ⟨y, -, -, hy⟩ := R_fin (x := u * D) (B := D) (by positivity) (R_R x0 hD) (by nlinarith)
    have e : qunif (fin u) (fin a) (fin b) = fin a + fin u * (fin b - fin a) := by
      simp [qunif, unif_ok, prob_val_ok, h2, u0.le, u1.le, u0.ne', u1.ne, qunif_compute]
    rw [e, DoubleArith.dsub, hD, ofE_coe, DoubleArith.dmul, hy, ofE_coe, DoubleArith.dadd, ofE_le_fin, ← hb]
    exact R_mono (lerp_le hab ha hb hu u0 u1 hD hy)
  · exact C16_unif_rounded_partial hab ha u0 huv v1

/-- If the difference overflows, `qunif` is infinite at every probability inside `(0,1)` and `b` at 1. -/
theorem C16_unif_double_violated {a b : ℝ} (hab : a < b) (hd : R (b - a) = ⊤) {u : ℝ} (u0 : 0 < u) (u1 : u < 1) :
    qunif (fin u) (fin a) (fin b) = pinf ∧ qunif (fin 1) (fin a) (fin b) = fin b := by
  have h2 : ¬ b ≤ a := by linarith
  have e : qunif (fin u) (fin a) (fin b) = fin a + fin u * (fin b - fin a) := by
    simp [qunif, unif_ok, prob_val_ok, h2, u0.le, u1.le, u0.ne', u1.ne, qunif_compute]
  refine ⟨?_, by simp [qunif, unif_ok, prob_val_ok, h2]⟩
  rw [e, DoubleArith.dsub, hd, ofE_top]
  simp [fin_mul_pinf, u0.ne', u0]

example : qunif (fin (1 / 2)) (fin (-1)) (fin (7 / 2)) ≤ qunif (fin 1) (fin (-1)) (fin (7 / 2)) :=
  (C16_unif_double (a := -1) (b := 7 / 2) (by norm_num)
    (by simpa using R_half (-2) (by norm_num)) (by simpa using R_half 7 (by norm_num))
    (by rw [show (7 / 2 - -1 : ℝ) = ((9 : ℤ) : ℝ) / 2 by norm_num, R_half 9 (by norm_num)]; exact EReal.coe_ne_top _)).2.2
    _ _ (by simpa using R_half 1 (by norm_num)) (by norm_num) (by norm_num) (by norm_num)
example {u : ℝ} (u0 : 0 < u) (u1 : u < 1) : qunif (fin u) (fin (-2 ^ 1023)) (fin (2 ^ 1023)) = pinf := by
  have p : (0 : ℝ) < 2 ^ 1023 := by positivity
  refine (C16_unif_double_violated ?_ ?_ u0 u1).1
  · generalize (2 : ℝ) ^ 1023 = t at p ⊢; linarith
  · apply R_big
    rw [show (2 : ℝ) ^ 1024 = 2 * 2 ^ 1023 by rw [pow_succ, mul_comm]]
    generalize (2 : ℝ) ^ 1023 = t; linarith

end Stats.C16Double

import Mathlib.Analysis.Complex.ExponentialBounds
import Verif.Props.C56
import Verif.Props.C04F
import Verif.Lemmas.RoundSpecial

/-!
# C20 and C56 in binary64: `qpois` returns, and all its integers fit

In IEEE 754 double precision with correctly rounded library functions the search of `qpois` ends for every rate up to
`2^63 - 2^35` and every probability below 1: the computed distribution function reaches 1 before the counter overflows, and
the starting point of the search fits.
-/

set_option linter.unusedSectionVars false
open Classical
namespace Stats
open Fl Out Spec

namespace PoisDouble
open Double

set_option warn.classDefReducibility false in
attribute [local instance] doubleLib

/-- neither NaN nor an infinity, and at most `B`; or NaN or minus infinity -/
def Below (B : ℝ) (v : Fl) : Prop := v ≠ pinf ∧ ∀ r, v = fin r → r ≤ B

theorem R_two_pow (e : ℕ) (he : e ≤ 1000) : R (2 ^ e) = (((2 : ℝ) ^ e : ℝ) : EReal) := by
  refine R_of_mul (by positivity) (k := 1) (j := e) (by simp) ?_ (pow_lt_pow_right₀ (by norm_num) (by omega))
  have := q_le (x := 2 ^ e) (by positivity) (e := e) (by
    rw [← zpow_natCast]; exact zpow_lt_zpow_right₀ (by norm_num) (by omega)) (by omega)
  omega

theorem R_le {x B : ℝ} (hB : R B = (B : EReal)) (h : x ≤ B) : R x ≤ (B : EReal) := hB ▸ R_mono h

theorem R_nonneg {x : ℝ} (h : 0 ≤ x) : 0 ≤ R x := doubleRounding.nonneg h

theorem ofE_below {E : EReal} {B : ℝ} (h : E ≤ (B : EReal)) : Below B (ofE E) := by
  induction E using EReal.rec with
  | bot => simp [Below]
  | top => simp at h
  | coe r => exact ⟨by simp, fun s hs => by
      rw [ofE_coe, fin.injEq] at hs; subst hs; exact_mod_cast h⟩

theorem R_fin {x B : ℝ} (h0 : 0 ≤ x) (hB : R B = (B : EReal)) (h : x ≤ B) :
    ∃ y : ℝ, 0 ≤ y ∧ y ≤ B ∧ R x = (y : EReal) := by
  have h1 := R_nonneg h0
  have h2 := R_le hB h
  generalize R x = z at *
  induction z using EReal.rec with
  | bot => simp at h1
  | top => simp at h2
  | coe y => exact ⟨y, by exact_mod_cast h1, by exact_mod_cast h2, rfl⟩

/-- the inverse error function at the greatest argument below 1 -/
theorem erfInv_le {y : ℝ} (h : y ≤ 1 - 1 / 2 ^ 52) : invOn Spec.erf Set.univ y ≤ 13 / 2 := by
  rw [invOn]
  split_ifs with hx
  · by_contra hc
    have h1 := hx.choose_spec.2
    have h2 := strictMono_erf (not_le.1 hc)
    have h3 := erf_tail (y := 13 / 2) (by norm_num)
    have h4 : Real.exp (-(13 / 2) ^ 2) ≤ 1 / 2 ^ 54 := by
      rw [Real.exp_neg, ← one_div]
      apply one_div_le_one_div_of_le (by positivity)
      have : (27 / 10 : ℝ) ≤ Real.exp 1 := by linarith [Real.exp_one_gt_d9]
      calc (2 : ℝ) ^ 54 ≤ (27 / 10) ^ 42 := by norm_num
        _ ≤ Real.exp 1 ^ 42 := pow_le_pow_left₀ (by norm_num) this 42
        _ = Real.exp 42 := by rw [← Real.exp_nat_mul]; norm_num
        _ ≤ Real.exp ((13 / 2) ^ 2) := Real.exp_le_exp.2 (by norm_num)
    rw [h1] at h2
    norm_num at h h2 h3 h4
    linarith
  · norm_num

theorem lt_big {x : ℝ} (h : x ≤ 2 ^ 63) : x < 2 ^ 1024 := h.trans_lt (pow_lt_pow_right₀ (by norm_num) (by norm_num))

theorem R_top (k : ℕ) (hk : k ≤ 10) : R (2 ^ 63 - 2 ^ (10 + k)) = (((2 : ℝ) ^ 63 - 2 ^ (10 + k) : ℝ) : EReal) := by
  have h : (2 : ℝ) ^ (10 + k) ≤ 2 ^ 20 := pow_le_pow_right₀ (by norm_num) (by omega)
  have h' : (0 : ℝ) < 2 ^ (10 + k) := by positivity
  have hp : (0 : ℝ) < 2 ^ 63 - 2 ^ (10 + k) := by norm_num at h ⊢; linarith
  refine R_of_mul hp (k := 2 ^ (53 - k) - 1) (j := (10 + k : ℕ)) ?_ ?_ ?_
  · push_cast
    rw [sub_mul, one_mul, ← zpow_natCast (2 : ℝ) (53 - k), ← zpow_natCast (2 : ℝ) (10 + k), ← zpow_natCast (2 : ℝ) 63,
      ← zpow_add₀ (by norm_num)]
    push_cast [show k ≤ 53 by omega]
    congr 2; ring
  · have := q_le hp (e := 62) (by norm_num at h' ⊢) (by norm_num)
    push_cast; omega
  · exact lt_big (by linarith)

/-- small odd multiples of a power of two are representable -/
theorem R_odd {x : ℝ} (k : ℕ) (j : ℤ) (h : x = k * 2 ^ j) (hk : 0 < k) (hk' : k < 16) (hj : -10 ≤ j) (hj' : j ≤ 100) :
    R x = (x : EReal) := by
  have p : (0 : ℝ) < 2 ^ j := by positivity
  have kp : (0 : ℝ) < k := by exact_mod_cast hk
  have kl : (k : ℝ) < 16 := by exact_mod_cast hk'
  have hx : x < 2 ^ (j + 4) := by
    rw [h, zpow_add₀ (by norm_num)]; norm_num; nlinarith
  refine R_of_mul (by rw [h]; positivity) (k := k) (j := j) (by rw [h]; push_cast; rfl) ?_ ?_
  · have := q_le (x := x) (by rw [h]; positivity) (e := j + 3) (by rwa [show j + 3 + 1 = j + 4 by ring]) (by omega)
    omega
  · refine hx.trans_le ?_
    rw [← zpow_natCast (2 : ℝ) 1024]
    exact zpow_le_zpow_right₀ (by norm_num) (by push_cast; omega)

theorem sqrt2_le : (Lib.sqrt2 : ℝ) ≤ 3 / 2 := by
  obtain ⟨y, -, h, e⟩ := R_fin (x := √2) (B := 3 / 2) (Real.sqrt_nonneg 2)
    (R_odd 3 (-1) (by norm_num) (by norm_num) (by norm_num) (by norm_num) (by norm_num))
    (Real.sqrt_le_iff.2 ⟨by norm_num, by norm_num⟩)
  have : (Lib.sqrt2 : ℝ) = (R √2).toReal := rfl
  rw [this, e, EReal.toReal_coe]; linarith

/-- the starting point before the conversion -/
theorem start_below {rate u : ℝ} (hr : 11 ≤ rate) (hr' : rate ≤ 2 ^ 63 - 2 ^ 35) (h0 : 0 < u) (h1 : u ≤ 1 - 1 / 2 ^ 53) :
    Below (2 ^ 63 - 2 ^ 11) (qnorm (fin u) (fin rate) (sqrt (fin rate)) - 3) := by
  have hu1 : u < 1 := h1.trans_lt (by norm_num)
  -- the square root
  obtain ⟨s, s0, s1, es⟩ := R_fin (x := √rate) (B := 3 * 2 ^ 30) (Real.sqrt_nonneg _)
    (R_odd 3 30 (by norm_num) (by norm_num) (by norm_num) (by norm_num) (by norm_num)) (by
    rw [Real.sqrt_le_iff]; exact ⟨by positivity, hr'.trans (by norm_num)⟩)
  have hs : sqrt (fin rate) = fin s := by
    show (if rate < 0 then nan else ofE (R √rate)) = _
    rw [if_neg (by linarith), es, ofE_coe]
  have s2 : 1 ≤ s := by
    have h := R_mono (Real.one_le_sqrt.2 (by linarith : 1 ≤ rate))
    have e1 : R 1 = ((1 : ℝ) : EReal) := by simpa using R_two_pow 0 (by norm_num)
    rw [es, e1] at h
    exact_mod_cast h
  -- the argument of the inverse error function
  have hB : R (2 - 1 / 2 ^ 52) = ((2 - 1 / 2 ^ 52 : ℝ) : EReal) := by
    refine R_of_mul (by norm_num) (k := 2 ^ 53 - 1) (j := -52) (by norm_num [zpow_neg]) ?_ ?_
    · have := q_le (x := 2 - 1 / 2 ^ 52) (by norm_num) (e := 0) (by norm_num) (by norm_num)
      omega
    · exact lt_big (by norm_num)
  obtain ⟨t, t0, t1, et⟩ := R_fin (x := 2 * u) (B := 2 - 1 / 2 ^ 52) (by linarith) hB (by
    have : (1 : ℝ) / 2 ^ 52 = 2 * (1 / 2 ^ 53) := by norm_num
    linarith)
  have hC : R (1 - 1 / 2 ^ 52) = ((1 - 1 / 2 ^ 52 : ℝ) : EReal) := by
    refine R_of_mul (by norm_num) (k := 2 ^ 52 - 1) (j := -52) (by norm_num [zpow_neg]) ?_ ?_
    · have := q_le (x := 1 - 1 / 2 ^ 52) (by norm_num) (e := 0) (by norm_num) (by norm_num)
      omega
    · exact lt_big (by norm_num)
  have hy : Below (1 - 1 / 2 ^ 52) (2 * fin u - 1) := by
    rw [ofNat_eq, one_eq, DoubleArith.dmul, et, ofE_coe, DoubleArith.dsub]
    exact ofE_below (R_le hC (by linarith))
  -- the inverse error function
  have hz : Below (13 / 2) (erfInv (2 * fin u - 1)) := by
    have h8 : R (13 / 2) = ((13 / 2 : ℝ) : EReal) :=
      R_odd 13 (-1) (by norm_num) (by norm_num) (by norm_num) (by norm_num) (by norm_num)
    generalize 2 * fin u - 1 = y at hy
    cases y with
    | nan => simp [erfInv, Below]
    | ninf => simp [erfInv, Below]
    | pinf => simp [erfInv, Below]
    | fin y =>
      have hle := hy.2 y rfl
      rw [erfInv]
      split_ifs with c1 c2 c3
      · simp [Below]
      · simp [Below]
      · norm_num [c3] at hle
      · exact ofE_below (R_le h8 (erfInv_le hle))
  -- the product
  have hpr : Below (15 * 2 ^ 31) (SQRT2 * fin s * erfInv (2 * fin u - 1)) := by
    have q0 := (Lib.sqrt2_pos : (0 : ℝ) < Lib.sqrt2)
    obtain ⟨a, a0, a1, ea⟩ := R_fin (x := Lib.sqrt2 * s) (B := 9 * 2 ^ 29) (by positivity)
      (R_odd 9 29 (by norm_num) (by norm_num) (by norm_num) (by norm_num) (by norm_num)) (by
      have := mul_le_mul sqrt2_le s1 s0 (by norm_num)
      norm_num at this ⊢; linarith)
    rw [SQRT2, DoubleArith.dmul, ea, ofE_coe]
    generalize erfInv (2 * fin u - 1) = z at hz
    cases z with
    | nan => simp [Below]
    | pinf => exact absurd rfl hz.1
    | ninf =>
      show Below _ (if a = 0 then nan else if 0 < a then ninf else pinf)
      split_ifs with c1 c2
      · simp [Below]
      · simp [Below]
      · exact absurd (lt_of_le_of_ne a0 (Ne.symm c1)) c2
    | fin z =>
      rw [DoubleArith.dmul]
      refine ofE_below (R_le (R_odd 15 31 (by norm_num) (by norm_num) (by norm_num) (by norm_num) (by norm_num)) ?_)
      have := hz.2 z rfl
      calc a * z ≤ a * (13 / 2) := by gcongr
        _ ≤ 9 * 2 ^ 29 * (13 / 2) := by gcongr
        _ ≤ 15 * 2 ^ 31 := by norm_num
  have hB' : R (2 ^ 63 - 2 ^ 11) = ((2 ^ 63 - 2 ^ 11 : ℝ) : EReal) := R_top 1 (by norm_num)
  have hsum : Below (2 ^ 63 - 2 ^ 11) (fin rate + SQRT2 * fin s * erfInv (2 * fin u - 1)) := by
    generalize SQRT2 * fin s * erfInv (2 * fin u - 1) = z at hpr
    cases z with
    | nan => simp [Below]
    | pinf => exact absurd rfl hpr.1
    | ninf => simp [Below]
    | fin z =>
      rw [DoubleArith.dadd]
      refine ofE_below (R_le hB' ?_)
      have := hpr.2 z rfl
      norm_num at this hr' ⊢; linarith
  have hq : qnorm (fin u) (fin rate) (sqrt (fin rate)) = fin rate + SQRT2 * fin s * erfInv (2 * fin u - 1) := by
    have n1 : ¬ s < 0 := by linarith
    have n2 : ¬ u < 0 := by linarith
    have n3 : ¬ 1 < u := by linarith
    have n4 : s ≠ 0 := by linarith
    rw [hs, qnorm, if_neg (by simp [norm_ok, n1]), if_neg (by simp [prob_val_ok, n2, n3]), if_neg (by simp),
      if_neg (by simp [n4]), if_neg (by simp [h0.ne']), if_neg (by simp [hu1.ne]), qnorm_compute]
  rw [hq]
  generalize fin rate + SQRT2 * fin s * erfInv (2 * fin u - 1) = z at hsum
  cases z with
  | nan => simp [Below]
  | pinf => exact absurd rfl hsum.1
  | ninf => simp [Below]
  | fin z =>
    rw [ofNat_eq, DoubleArith.dsub]
    refine ofE_below (R_le hB' ?_)
    have := hsum.2 z rfl
    norm_num at this ⊢; linarith

/-- an exponential bound for the lower tail of the gamma law -/
theorem gammaP_chernoff {a z s : ℝ} (ha : 0 < a) (hz : 0 ≤ z) (hs : 0 ≤ s) :
    gammaP a z ≤ Real.exp (s * z - a * (s - s ^ 2 / 2)) := by
  rcases hz.eq_or_lt with rfl | hz
  · rw [gammaP_zero]; exact (Real.exp_pos _).le
  have hG := Real.Gamma_pos_of_pos ha
  have ht : 0 < 1 + s := by linarith
  have h : (1 + s) ^ a * Real.exp (-(s * z)) * gammaP a z ≤ gammaP a ((1 + s) * z) := by
    rw [gammaP, gammaP, ← mul_div_assoc]
    refine div_le_div_of_nonneg_right (integral_scale hz.le ht ?_ ?_ fun x hx => ?_) hG.le
    · exact gammaInt_intervalIntegrable ha le_rfl hz.le
    · exact gammaInt_intervalIntegrable ha le_rfl (by positivity)
    · have e : (1 + s) * (((1 + s) * x) ^ (a - 1) * Real.exp (-((1 + s) * x))) =
          (1 + s) ^ a * Real.exp (-(s * x)) * (x ^ (a - 1) * Real.exp (-x)) := by
        rw [Real.mul_rpow ht.le hx.1.le, Real.rpow_sub_one ht.ne', show -((1 + s) * x) = -(s * x) + -x by ring, Real.exp_add]
        field_simp
      rw [e]
      have := hx.1
      have := mul_le_mul_of_nonneg_left hx.2.le hs
      gcongr
  have h1 := gammaP_lt_one ha (show 0 ≤ (1 + s) * z by positivity)
  have hl : s - s ^ 2 / 2 ≤ Real.log (1 + s) := by
    have := Real.le_log_one_add_of_nonneg hs
    refine le_trans ?_ this
    rw [le_div_iff₀ (by linarith)]
    nlinarith [pow_nonneg hs 3]
  have h2 : Real.exp (a * (s - s ^ 2 / 2)) ≤ (1 + s) ^ a := by
    rw [Real.rpow_def_of_pos ht, mul_comm a]
    exact Real.exp_le_exp.2 (mul_le_mul_of_nonneg_right hl ha.le)
  have h3 : Real.exp (a * (s - s ^ 2 / 2)) * Real.exp (-(s * z)) * gammaP a z ≤ 1 := by
    refine le_trans ?_ (h.trans h1.le)
    have := gammaP_nonneg ha hz.le
    gcongr
  rw [← Real.exp_add] at h3
  rw [show s * z - a * (s - s ^ 2 / 2) = -(a * (s - s ^ 2 / 2) + -(s * z)) by ring, Real.exp_neg, ← one_div,
    le_div_iff₀ (Real.exp_pos _), mul_comm]
  exact h3

/-- the computed distribution function is 1 at `2^63 - 1025` -/
theorem ppois_one {rate : ℝ} (hr : 0 ≤ rate) (hr' : rate ≤ 2 ^ 63 - 2 ^ 35) : ppois (2 ^ 63 - 1025) (fin rate) false = fin 1 := by
  have hok : pois_ok (fin rate) := by simp [pois_ok, hr]
  have hA : R (2 ^ 63 - 2 ^ 10) = ((2 ^ 63 - 2 ^ 10 : ℝ) : EReal) := R_top 0 (by norm_num)
  have hof : ofInt (2 ^ 63 - 1025 + 1) = fin (2 ^ 63 - 2 ^ 10) := by
    show ofE (R _) = _
    rw [show (((2 : ℤ) ^ 63 - 1025 + 1 : ℤ) : ℝ) = 2 ^ 63 - 2 ^ 10 by norm_num, hA, ofE_coe]
  -- the tail
  have hg : gammaP (2 ^ 63 - 2 ^ 10) rate ≤ 1 / 2 ^ 55 := by
    have h1 := gammaP_chernoff (a := 2 ^ 63 - 2 ^ 10) (z := rate) (s := 1 / 2 ^ 28) (by norm_num) hr (by norm_num)
    have h2 : 1 / 2 ^ 28 * rate - (2 ^ 63 - 2 ^ 10) * (1 / 2 ^ 28 - (1 / 2 ^ 28) ^ 2 / 2) ≤ -(60 : ℝ) := by
      norm_num at hr' ⊢; linarith
    refine (h1.trans (Real.exp_le_exp.2 h2)).trans ?_
    · rw [Real.exp_neg, one_div]
      gcongr
      have h2 : (2 : ℝ) ≤ Real.exp 1 := by have := Real.add_one_le_exp (1 : ℝ); linarith
      calc (2 : ℝ) ^ 55 ≤ Real.exp 1 ^ 55 := by gcongr
        _ = Real.exp 55 := by rw [← Real.exp_nat_mul]; norm_num
        _ ≤ _ := Real.exp_le_exp.2 (by norm_num)
  have hp : (0 : ℝ) < 2 ^ 63 - 2 ^ 10 := by norm_num
  have hig : ∃ g : ℝ, 0 ≤ g ∧ g ≤ 1 / 2 ^ 55 ∧ igamma (fin (2 ^ 63 - 2 ^ 10)) (fin rate) = fin g := by
    obtain ⟨g, g0, g1, eg⟩ := R_fin (gammaP_nonneg hp hr) (R_pow 55 (by norm_num)) hg
    refine ⟨g, g0, g1, ?_⟩
    show (if (2 : ℝ) ^ 63 - 2 ^ 10 < 0 ∨ rate < 0 then nan else
      ofE (if (0 : ℝ) < 2 ^ 63 - 2 ^ 10 ∧ 0 ≤ rate then R (gammaP (2 ^ 63 - 2 ^ 10) rate) else if rate < 0 then 0 else 1)) = _
    rw [if_neg (by rintro (h | h) <;> linarith), if_pos ⟨hp, hr⟩, eg, ofE_coe]
  obtain ⟨g, g0, g1, eg⟩ := hig
  rw [ppois, if_neg (not_not.2 hok), if_neg (by norm_num), if_neg (by simp), log_if_false, ppois_compute,
    if_pos (Or.inr (by norm_num)), hof, eg, one_eq, DoubleArith.dsub]
  have e1 : R 1 = ((1 : ℝ) : EReal) := by simpa using R_two_pow 0 (by norm_num)
  have hlo : R (1 - 1 / 2 ^ 55) = ((1 : ℝ) : EReal) := by
    have := R_near (x := 1 - 1 / 2 ^ 55) (-1) (2 ^ 53) (by norm_num) (by norm_num) (by norm_num) (by norm_num) (by norm_num)
    rw [this]; norm_num
  have : R (1 - g) = ((1 : ℝ) : EReal) :=
    le_antisymm (e1 ▸ R_mono (by linarith)) (hlo ▸ R_mono (by linarith))
  rw [this, ofE_coe]

/-- the integer the search returns -/
theorem search_run {rate u : ℝ} (hr : 0 ≤ rate) (hr' : rate ≤ 2 ^ 63 - 2 ^ 35) (h1 : u < 1) {c : ℤ} (hc : 0 ≤ c)
    (hc' : c ≤ 2 ^ 63 - 1025) (v : Fl) :
    ∃ k : ℕ, (k : ℤ) ≤ 2 ^ 63 - 1025 ∧
      runFuel (fun fuel => qpois_compute_right_search (fin u) (fin rate) fuel v c) = some (ofInt k) ∧
      Defined (run fun fuel => qpois_right_searchT (fin u) (fin rate) fuel v c) (ofInt k) := by
  have hz : ofInt 0 = 0 := by
    have h := doubleRounding.zero
    show ofE (doubleRounding.R _) = _
    rw [Int.cast_zero, h, ofE_zero, zero_eq]
  obtain ⟨D, hD⟩ := Int.le.dest hc'
  by_cases hle : v ≤ fin u
  · have hex : ∃ d : ℕ, ¬ ppois (c + d) (fin rate) false ≤ fin u := by
      refine ⟨D, ?_⟩
      rw [hD, ppois_one hr hr']
      simpa using h1
    have hmin : ∀ j : ℕ, j < Nat.find hex → ppois (c + j) (fin rate) false ≤ fin u :=
      fun j hj => not_not.1 (Nat.find_min hex hj)
    have hK : c + Nat.find hex ≤ 2 ^ 63 - 1025 := by
      by_contra hcon
      have := hmin D (by omega)
      rw [hD, ppois_one hr hr'] at this
      simp at this; linarith
    obtain ⟨k, hk⟩ := Int.eq_ofNat_of_zero_le (show 0 ≤ c + (Nat.find hex : ℤ) by omega)
    have a := qpois_search_stops (fin u) (fin rate) _ v c hc hle hmin (Nat.find_spec hex)
    obtain ⟨w, e, b, -⟩ := qpois_searchT_stops (fin u) (fin rate) _ v c hc (by omega) hle hmin (Nat.find_spec hex)
    rw [hk] at a b
    exact ⟨k, by omega, runFuel_eq (qpois_search_mono _ _ _ _) a, w, e,
      run_eq (fun m h => qpois_right_searchT_mono (fin u) (fin rate) v c m h) b (by simp)⟩
  · rcases hc.eq_or_lt with rfl | h
    · refine ⟨0, by norm_num, ?_, 1, 1, ?_⟩
      · refine runFuel_eq (n := 1) (qpois_search_mono _ _ _ _) ?_
        rw [qpois_compute_right_search, if_neg hle, if_neg (by omega)]; simp [hz]
      · refine run_eq (fun m h => qpois_right_searchT_mono (fin u) (fin rate) v 0 m h) (n := 1) ?_ (by simp)
        rw [qpois_right_searchT, if_neg hle, if_neg (by omega)]; simp [hz]
    · obtain ⟨k, hk⟩ := Int.eq_ofNat_of_zero_le (show 0 ≤ c - 1 by omega)
      refine ⟨k, by omega, ?_, 1, 1, ?_⟩
      · refine runFuel_eq (n := 1) (qpois_search_mono _ _ _ _) ?_
        rw [qpois_compute_right_search, if_neg hle, if_pos (by omega), hk]
      · refine run_eq (fun m h => qpois_right_searchT_mono (fin u) (fin rate) v c m h) (n := 1) ?_ (by simp)
        rw [qpois_right_searchT, if_neg hle, if_pos (by omega), llOp_of ⟨by omega, by omega⟩, hk]; simp

end PoisDouble

section
open PoisDouble
set_option warn.classDefReducibility false in
attribute [local instance] doubleLib

/-- `qpois` in binary64: for every rate up to `2^63 - 2^35` and every probability below 1 (the greatest is `1 - 2^(-53)`) it
returns an integer, and neither the starting point nor the counter leaves `llint_t`. -/
theorem C20_qpois_double_partial {rate u : ℝ} (hr : 0 ≤ rate) (hr' : rate ≤ 2 ^ 63 - 2 ^ 35) (h0 : 0 ≤ u) (h1 : u ≤ 1 - 1 / 2 ^ 53) :
    ∃ k : ℕ, (k : ℤ) ≤ 2 ^ 63 - 1025 ∧ qpois (fin u) (fin rate) = some (ofInt k) ∧
      Defined (qpoisT (fin u) (fin rate)) (ofInt k) := by
  have hu1 : u < 1 := h1.trans_lt (by norm_num)
  have hz : ofInt 0 = 0 := by
    have h := doubleRounding.zero
    show ofE (doubleRounding.R _) = _
    rw [Int.cast_zero, h, ofE_zero, zero_eq]
  have a : pois_ok (fin rate) := by simp [pois_ok, hr]
  have b : prob_val_ok (fin u) := by simp [prob_val_ok, h0, hu1.le]
  rcases h0.eq_or_lt with rfl | hu
  · refine ⟨0, by norm_num, ?_, 1, 1, ?_⟩
    · rw [qpois, if_neg (not_not.2 a), if_neg (not_not.2 b)]; simp [hz]
    · rw [qpoisT, if_neg (not_not.2 a), if_neg (not_not.2 b)]; simp [hz]
  rcases lt_or_ge rate Lib.eps with h | h
  · refine ⟨0, by norm_num, ?_, 1, 1, ?_⟩
    · rw [qpois, if_neg (not_not.2 a), if_neg (not_not.2 b)]; simp [hz, hu.ne', eps, h]
    · rw [qpoisT, if_neg (not_not.2 a), if_neg (not_not.2 b)]; simp [hz, hu.ne', eps, h]
  have hq : qpois (fin u) (fin rate) = if rate < 11 then
      runFuel (fun fuel => qpois_compute_right_search (fin u) (fin rate) fuel 0 0) else
      qpois_compute_search_begin (fin u) (fin rate) (qpois_trunc_normal_approx (fin u) (fin rate)) := by
    rw [qpois, if_neg (not_not.2 a), if_neg (not_not.2 b)]
    simp [hu.ne', hu1.ne, eps, not_lt.2 h]
  rw [hq, qpoisT_unfold h hu hu1]
  split_ifs with h11
  · obtain ⟨k, hk, e1, w, d, e2⟩ := search_run hr hr' hu1 (c := 0) le_rfl (by norm_num) 0
    exact ⟨k, hk, e1, w + 1, d + 1, by rw [e2]; rfl⟩
  · have hB := start_below (not_lt.1 h11) hr' hu h1
    have hm : ∃ r : ℝ, 0 ≤ r ∧ r ≤ 2 ^ 63 - 2 ^ 11 ∧
        Fl.max 0 (qnorm (fin u) (fin rate) (sqrt (fin rate)) - 3) = fin r := by
      have hn : (0 : ℝ) ≤ 2 ^ 63 - 2 ^ 11 := by norm_num
      generalize qnorm (fin u) (fin rate) (sqrt (fin rate)) - 3 = z at hB
      cases z with
      | nan => exact ⟨0, le_rfl, hn, by simp [Fl.max]⟩
      | ninf => exact ⟨0, le_rfl, hn, by simp [Fl.max]⟩
      | pinf => exact absurd rfl hB.1
      | fin z =>
        by_cases hz : 0 < z
        · exact ⟨z, hz.le, hB.2 z rfl, by simp [Fl.max, hz]⟩
        · exact ⟨0, le_rfl, hn, by simp [Fl.max, hz]⟩
    obtain ⟨r, r0, r1, er⟩ := hm
    have f0 := Int.floor_nonneg.2 r0
    have f1 : ⌊r⌋ ≤ 2 ^ 63 - 2 ^ 11 := by
      have : (⌊r⌋ : ℝ) ≤ ((2 ^ 63 - 2 ^ 11 : ℤ) : ℝ) := (Int.floor_le r).trans (r1.trans (by norm_num))
      exact_mod_cast this
    have ec : qpois_trunc_normal_approx (fin u) (fin rate) = ⌊r⌋ := by
      rw [qpois_trunc_normal_approx, er]; rfl
    obtain ⟨w', -, ep⟩ := ppoisT_eq (x := ⌊r⌋) (by omega) (fin rate) false
    obtain ⟨k, hk, e1, w, d, e2⟩ := search_run hr hr' hu1 f0 (by omega) (ppois ⌊r⌋ (fin rate) false)
    refine ⟨k, hk, by rw [ec, qpois_compute_search_begin, e1], ?_⟩
    rw [er, llCast_fin r0, if_pos (by omega), done_andThen, ep]
    simp only [andThen, e2, call_ret]
    exact ⟨_, _, rfl⟩

/-- the greatest probability below 1 and a rate of `9 * 10^18` -/
example : ∃ k : ℕ, (k : ℤ) ≤ 2 ^ 63 - 1025 ∧ qpois (fin (1 - 1 / 2 ^ 53)) (fin (9 * 10 ^ 18)) = some (ofInt k) ∧
    Defined (qpoisT (fin (1 - 1 / 2 ^ 53)) (fin (9 * 10 ^ 18))) (ofInt k) :=
  C20_qpois_double_partial (by norm_num) (by norm_num) (by norm_num) le_rfl

end
end Stats

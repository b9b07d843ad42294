import Verif.Props.C09B
import Verif.Props.C33
import Verif.Lemmas.FairInst

/-!
# C33, C28: `rinvgauss` in binary64

The smaller root is computed as `mu + (mu^2 y - mu sqrt(4 mu lambda y + mu^2 y^2)) / (2 lambda)`. For `mu` much larger than `lambda` the
two terms in the numerator agree in all their digits or in all but the last. With `mu = 2^60`, `lambda = 1` the numerator is 0 for every
normal variate between 1 and 1024 in absolute value, and the draw is `mu` whatever the uniform variate is. With `mu = 2^30`, `lambda = 1`
and normal variate 1 the draw is 0, with `mu = 63 * 2^39` and normal variate 3 it is negative; both are outside the support.
-/

set_option linter.unusedSectionVars false
set_option exponentiation.threshold 2000
open Classical MeasureTheory
namespace Stats
open Fl Spec

namespace Double

/-- Rounding commutes with multiplication by a power of two, in the normal range. -/
theorem R_scale {x y : ℝ} (h1 : 1 ≤ x) (h2 : x ≤ 2 ^ 500) (h : R x = (y : EReal)) (k : ℕ) (hk : k ≤ 500) :
    R (2 ^ k * x) = ((2 ^ k * y : ℝ) : EReal) := by
  have x0 : 0 < x := by linarith
  have el : (2 : ℝ) ^ Int.log 2 x ≤ x := by exact_mod_cast Int.zpow_log_le_self (b := 2) (by norm_num) x0
  have eu : x < (2 : ℝ) ^ (Int.log 2 x + 1) := by exact_mod_cast Int.lt_zpow_succ_log_self (b := 2) (by norm_num) x
  generalize Int.log 2 x = e at el eu
  have e0 : 0 ≤ e := by
    by_contra hc
    have : (2 : ℝ) ^ (e + 1) ≤ 2 ^ (0 : ℤ) := zpow_le_zpow_right₀ (by norm_num) (by omega)
    rw [zpow_zero] at this; linarith
  have e1 : e ≤ 500 := by
    by_contra hc
    have : (2 : ℝ) ^ (501 : ℤ) ≤ 2 ^ e := zpow_le_zpow_right₀ (by norm_num) (by omega)
    have h3 : (2 : ℝ) ^ 500 < 2 ^ (501 : ℤ) := by norm_num
    linarith
  have kz : (2 : ℝ) ^ k = 2 ^ (k : ℤ) := (zpow_natCast 2 k).symm
  have kp := zpow_pos' (k : ℤ)
  have a := R_of_rne el eu (by omega) (by omega) rfl
  rw [h] at a
  have a : y = _ := EReal.coe_injective a
  have b := R_of_rne (x := 2 ^ k * x) (e := k + e) (n := rne (x / 2 ^ (e - 52)))
    (by rw [kz, zpow_add₀ (by norm_num)]; exact mul_le_mul_of_nonneg_left el kp.le)
    (by rw [kz, add_assoc, zpow_add₀ (by norm_num)]; exact mul_lt_mul_of_pos_left eu kp)
    (by omega) (by omega)
    (by
      congr 1
      rw [kz, show (k : ℤ) + e - 52 = k + (e - 52) by ring, zpow_add₀ (by norm_num), mul_div_mul_left _ _ kp.ne'])
  rw [b, a, kz, show (k : ℤ) + e - 52 = k + (e - 52) by ring, zpow_add₀ (by norm_num)]
  congr 1; ring

/-- A small term is lost when it is added to a double. -/
theorem absorb {t d : ℝ} (h1 : 1 ≤ t) (h2 : t ≤ 2 ^ 500) (ht : R t = (t : EReal)) (d0 : 0 ≤ d) (hd : 2 ^ 54 * d < 2 ^ 120 * t) :
    R (2 ^ 120 * t + d) = ((2 ^ 120 * t : ℝ) : EReal) := by
  have t0 : 0 < t := by linarith
  have el : (2 : ℝ) ^ Int.log 2 t ≤ t := by exact_mod_cast Int.zpow_log_le_self (b := 2) (by norm_num) t0
  have eu : t < (2 : ℝ) ^ (Int.log 2 t + 1) := by exact_mod_cast Int.lt_zpow_succ_log_self (b := 2) (by norm_num) t
  generalize Int.log 2 t = e at el eu
  have e0 : 0 ≤ e := by
    by_contra hc
    have : (2 : ℝ) ^ (e + 1) ≤ 2 ^ (0 : ℤ) := zpow_le_zpow_right₀ (by norm_num) (by omega)
    rw [zpow_zero] at this; linarith
  have e1 : e ≤ 500 := by
    by_contra hc
    have : (2 : ℝ) ^ (501 : ℤ) ≤ 2 ^ e := zpow_le_zpow_right₀ (by norm_num) (by omega)
    have h3 : (2 : ℝ) ^ 500 < 2 ^ (501 : ℤ) := by norm_num
    linarith
  have a := R_of_rne el eu (by omega) (by omega) rfl
  rw [ht] at a
  have a : t = _ := EReal.coe_injective a
  generalize rne (t / 2 ^ (e - 52)) = n at a
  have q := zpow_pos' (e - 52)
  have hq : (2 : ℝ) ^ (e + 1) = 2 ^ 53 * 2 ^ (e - 52) := by
    rw [show e + 1 = 53 + (e - 52) by ring, zpow_add₀ (by norm_num)]; norm_num
  have hq' : (2 : ℝ) ^ (e + 121) = 2 ^ 120 * 2 ^ (e + 1) := by
    rw [show e + 121 = 120 + (e + 1) by ring, zpow_add₀ (by norm_num)]; norm_num
  have hq2 : (2 : ℝ) ^ (e + 120) = 2 ^ 120 * 2 ^ e := by
    rw [show e + 120 = 120 + e by ring, zpow_add₀ (by norm_num)]; norm_num
  have hq3 : (2 : ℝ) ^ (e + 120 - 52) = 2 ^ 120 * 2 ^ (e - 52) := by
    rw [show e + 120 - 52 = 120 + (e - 52) by ring, zpow_add₀ (by norm_num)]; norm_num
  have hn : n < 2 ^ 53 := by
    have : (n : ℝ) * 2 ^ (e - 52) < 2 ^ 53 * 2 ^ (e - 52) := by rw [← hq, ← a]; exact eu
    exact_mod_cast lt_of_mul_lt_mul_right this q.le
  have hn1 : (n : ℝ) ≤ 2 ^ 53 - 1 := by exact_mod_cast (by omega : n ≤ 2 ^ 53 - 1)
  have tq : t ≤ (2 ^ 53 - 1) * 2 ^ (e - 52) := by rw [a]; exact mul_le_mul_of_nonneg_right hn1 q.le
  have dq : 2 * d < 2 ^ 120 * 2 ^ (e - 52) := by nlinarith
  have := R_near (x := 2 ^ 120 * t + d) (e + 120) n (by rw [hq2]; nlinarith)
    (by rw [show e + 120 + 1 = e + 121 by ring, hq', hq]; nlinarith) (by omega) (by omega)
    (by
      rw [hq3]
      have hs : (2 ^ 120 * t + d) / (2 ^ 120 * 2 ^ (e - 52)) - n = d / (2 ^ 120 * 2 ^ (e - 52)) := by
        rw [a]; field_simp; ring
      rw [hs, abs_of_nonneg (by positivity), div_lt_iff₀ (by positivity)]
      linarith)
  rw [this, hq3]
  congr 1
  rw [mul_left_comm, ← a, mul_comm]

theorem R_range {x : ℝ} {j k : ℕ} (hj : j ≤ 1000) (hk : k ≤ 1000) (h1 : 2 ^ j ≤ x) (h2 : x ≤ 2 ^ k) :
    ∃ y : ℝ, R x = (y : EReal) ∧ 2 ^ j ≤ y ∧ y ≤ 2 ^ k := by
  have a := R_mono h1
  have b := R_mono h2
  rw [PoisDouble.R_two_pow j hj] at a
  rw [PoisDouble.R_two_pow k hk] at b
  generalize R x = z at a b
  induction z using EReal.rec with
  | bot => exact absurd a (not_le.2 (EReal.bot_lt_coe _))
  | top => exact absurd b (not_le.2 (EReal.coe_lt_top _))
  | coe r => exact ⟨r, rfl, EReal.coe_le_coe_iff.1 a, EReal.coe_le_coe_iff.1 b⟩

end Double

namespace C33Double
open Double DoubleArith
set_option warn.classDefReducibility false in
attribute [local instance] doubleLib

theorem two_pow (k : ℕ) (hk : k ≤ 1000) : ofE (R (2 ^ k)) = fin (2 ^ k) := by rw [PoisDouble.R_two_pow k hk, ofE_coe]

/-- the square of the normal variate -/
theorem square {S : Type*} [Engine S] {s : S} {j k : ℕ} (hj : 2 * j ≤ 100) (hk : 2 * k ≤ 100)
    (h1 : 2 ^ j ≤ |(Engine.norm s).1|) (h2 : |(Engine.norm s).1| ≤ 2 ^ k) :
    ∃ y : ℝ, (rnorm 0 1 s).1 * (rnorm 0 1 s).1 = fin y ∧ R y = (y : EReal) ∧ 2 ^ (2 * j) ≤ y ∧ y ≤ 2 ^ (2 * k) := by
  obtain ⟨v, ev, v1, v2⟩ := R_range (by omega) (by omega) h1 h2
  have v0 : 0 ≤ v := le_trans (by positivity) v1
  have rv := R_R (abs_nonneg _) ev
  have hr : ∃ w : ℝ, (rnorm 0 1 s).1 = fin w ∧ w * w = v * v := by
    have hz : (rnorm 0 1 s).1 = fin 0 + fin 1 * fin (Engine.norm s).1 := by
      simp only [rnorm]
      rw [if_neg (by simp [norm_ok, zero_eq, one_eq])]
      simp only [zero_eq, one_eq]
    rw [hz, dmul, one_mul]
    generalize (Engine.norm s).1 = x at ev
    rcases abs_choice x with h | h
    · rw [h] at ev
      exact ⟨v, by rw [ev, ofE_coe, dadd, zero_add, rv, ofE_coe], rfl⟩
    · rw [h, R_neg] at ev
      have e2 : R x = ((-v : ℝ) : EReal) := by rw [← neg_neg (R x), ev, EReal.coe_neg]
      exact ⟨-v, by rw [e2, ofE_coe, dadd, zero_add, R_neg, rv, ← EReal.coe_neg, ofE_coe], by ring⟩
  obtain ⟨w, ew, hw⟩ := hr
  obtain ⟨y, ey, y1, y2⟩ := R_range (x := v * v) (j := 2 * j) (k := 2 * k) (by omega) (by omega)
    (by rw [two_mul, pow_add]; exact mul_le_mul v1 v1 (by positivity) v0)
    (by rw [two_mul, pow_add]; exact mul_le_mul v2 v2 v0 (by positivity))
  exact ⟨y, by rw [ew, dmul, hw, ey, ofE_coe], R_R (mul_nonneg v0 v0) ey, y1, y2⟩

theorem lost {y t : ℝ} (h1 : 1 ≤ y) (hy : R y = (y : EReal)) (ht : R (y * y) = (t : EReal)) : 2 ^ 54 * (2 ^ 62 * y) < 2 ^ 120 * t := by
  have h : y ≤ t := by
    have := R_mono (show y ≤ y * y by nlinarith)
    rw [hy, ht] at this
    exact EReal.coe_le_coe_iff.1 this
  nlinarith

/-- `mu = 2^60`, `lambda = 1`: any engine, any normal variate between 1 and 1024 in absolute value, any uniform variate. -/
theorem C33_rinvgauss_double_stuck {S : Type*} [Engine S] (s : S) (h1 : 1 ≤ |(Engine.norm s).1|) (h2 : |(Engine.norm s).1| ≤ 1024) :
    (rinvgauss (fin (2 ^ 60)) (fin 1) s).1 = fin (2 ^ 60) := by
  obtain ⟨y, hy, ry, y1, y2⟩ := square (s := s) (j := 0) (k := 10) (by norm_num) (by norm_num) (by simpa using h1) (by norm_num; exact h2)
  norm_num at y1 y2
  obtain ⟨t, et, t1, t2⟩ := R_range (x := y * y) (j := 0) (k := 40) (by norm_num) (by norm_num) (by norm_num; nlinarith) (by norm_num; nlinarith)
  norm_num at t1 t2
  have rt := R_R (mul_self_nonneg y) et
  have sq := sqrt_sq y1 ry et
  have big0 : (1099511627776 : ℝ) ≤ 2 ^ 500 := by norm_num
  have big : (1048576 : ℝ) ≤ 2 ^ 500 := by norm_num
  have a1 : fin (2 ^ 60) * fin (2 ^ 60) = fin (2 ^ 120) := by rw [dmul, ← pow_add, two_pow _ (by norm_num)]
  have a2 : fin (2 ^ 120) * fin y = fin (2 ^ 120 * y) := by rw [dmul, R_scale y1 (by linarith) ry _ (by norm_num), ofE_coe]
  have a3 : (4 : Fl) * fin (2 ^ 60) * fin 1 * fin y = fin (2 ^ 62 * y) := by
    rw [ofNat_eq 4, dmul, show (OfNat.ofNat 4 * 2 ^ 60 : ℝ) = 2 ^ 62 by norm_num, two_pow _ (by norm_num), dmul, mul_one, two_pow _ (by norm_num),
      dmul, R_scale y1 (by linarith) ry _ (by norm_num), ofE_coe]
  have a4 : fin (2 ^ 120 * y) * fin y = fin (2 ^ 120 * t) := by
    rw [dmul, mul_assoc, R_scale (by nlinarith) (by nlinarith) et _ (by norm_num), ofE_coe]
  have a5 : fin (2 ^ 62 * y) + fin (2 ^ 120 * t) = fin (2 ^ 120 * t) := by
    rw [dadd, add_comm, absorb t1 (by linarith) rt (by linarith) (lost y1 ry et), ofE_coe]
  have a6 : sqrt (fin (2 ^ 120 * t)) = fin (2 ^ 60 * y) := by
    show (if 2 ^ 120 * t < 0 then nan else ofE (R √(2 ^ 120 * t))) = _
    have e : √(2 ^ 120 * t) = 2 ^ 60 * √t := by
      rw [show (2 : ℝ) ^ 120 = 2 ^ 60 * 2 ^ 60 by norm_num, Real.sqrt_mul (by positivity), Real.sqrt_mul_self (by positivity)]
    rw [if_neg (by nlinarith), e, R_scale (Real.one_le_sqrt.2 t1) (Real.sqrt_le_iff.2 ⟨by positivity, by nlinarith⟩) sq _ (by norm_num), ofE_coe]
  have a7 : fin (2 ^ 60) * fin (2 ^ 60 * y) = fin (2 ^ 120 * y) := by
    rw [dmul, ← mul_assoc, ← pow_add, R_scale y1 (by linarith) ry _ (by norm_num), ofE_coe]
  have r0 : ofE (R 0) = fin 0 := by rw [show R 0 = ((0 : ℝ) : EReal) from doubleRounding.zero, ofE_coe]
  have a8 : (2 : Fl) * fin 1 = fin 2 := by
    rw [ofNat_eq 2, dmul, mul_one]; simpa using two_pow 1 (by norm_num)
  have a9 : fin 0 / fin 2 = fin 0 := by rw [ddiv _ two_ne_zero, zero_div, r0]
  have a10 : fin (2 ^ 60) + fin 0 = fin (2 ^ 60) := by rw [dadd, add_zero, two_pow _ (by norm_num)]
  have a11 : fin (2 ^ 120) / fin (2 ^ 60) = fin (2 ^ 60) := by
    rw [ddiv _ (by positivity), show ((2 : ℝ) ^ 120 / 2 ^ 60) = 2 ^ 60 by norm_num, two_pow _ (by norm_num)]
  have a12 : fin (2 ^ 120 * y) - fin (2 ^ 120 * y) = fin 0 := by rw [dsub, sub_self, r0]
  simp only [rinvgauss]
  rw [hy, a1, a2, a3, a4, a5, a6, a7, a12, a8, a9, a10, a11, ite_self]

/-- C33 fails in binary64: with an ideal engine the draw for `mu = 2^60`, `lambda = 1` is `2^60` with positive probability, so it has no
density, let alone the inverse Gaussian one. -/
theorem C33_rinvgauss_double_violated {S : Type*} [MeasurableSpace S] [Engine S] {P : Measure S} (hP : FairEngine P) (f : ℝ → ℝ) :
    ¬ HasLaw P (fun s => some (rinvgauss (fin (2 ^ 60)) (fin 1) s)) (densLaw f) := by
  intro h
  have := hP.prob
  obtain ⟨Z, N, hZ, eZ⟩ := hasLaw_iff.1 hP.norm
  obtain ⟨X, M, hX, eX⟩ := hasLaw_iff.1 h
  have hs : SFinite (densLaw f) := by unfold densLaw; infer_instance
  have h0 : ∀ᵐ x ∂(densLaw f), x ≠ 2 ^ 60 := by
    refine (withDensity_absolutelyContinuous volume _).ae_le ?_
    exact compl_mem_ae_iff.2 (measure_singleton _)
  have h1 : ∀ᵐ s ∂P, Z s ∉ Set.Icc (1 : ℝ) 1024 := by
    filter_upwards [eZ, eX, hX.ae_val h0] with s hz hx hn hm
    refine hn ?_
    have h1 : (Engine.norm s).1 = Z s := Fl.fin.inj (congrArg Prod.fst (Option.some.inj hz))
    have := C33_rinvgauss_double_stuck s (by rw [h1]; exact hm.1.trans (le_abs_self _)) (by rw [h1, abs_of_nonneg (by linarith [hm.1])]; exact hm.2)
    rw [Option.some.inj hx] at this
    exact Fl.fin.inj this
  have h2 : P.map Z (Set.Icc 1 1024) = 0 := by
    rw [Measure.map_apply hZ.mX measurableSet_Icc]
    exact measure_eq_zero_iff_ae_notMem.2 h1
  rw [hZ.fst, densLaw, withDensity_apply_eq_zero' (Measurable.aemeasurable (by unfold normPdf; fun_prop))] at h2
  have h3 : {x | ENNReal.ofReal (normPdf 0 1 x) ≠ 0} ∩ Set.Icc 1 1024 = Set.Icc (1 : ℝ) 1024 := by
    ext x
    simp [normPdf_pos' one_pos x]
  rw [h3, Real.volume_Icc] at h2
  norm_num at h2

example : ¬ HasLaw Tape.tapeLaw (fun s => some (rinvgauss (fin (2 ^ 60)) (fin 1) s)) (densLaw (invgaussPdf (2 ^ 60) 1)) :=
  C33_rinvgauss_double_violated Tape.fair _

/-- The same draw is not a root of the transformation equation: the left side is 0, the right side at least `2^180`. -/
theorem C33_root_double_violated {S : Type*} [Engine S] (s : S) (h1 : 1 ≤ |(Engine.norm s).1|) (h2 : |(Engine.norm s).1| ≤ 1024) :
    ¬ ∃ x : ℝ, (rinvgauss (fin (2 ^ 60)) (fin 1) s).1 = fin x ∧ 0 < x ∧
      1 * (x - 2 ^ 60) ^ 2 = (2 ^ 60) ^ 2 * x * ((Engine.norm s).1 ^ 2) := by
  rintro ⟨x, hx, -, h⟩
  rw [C33_rinvgauss_double_stuck s h1 h2] at hx
  obtain rfl := Fl.fin.inj hx
  have : 1 ≤ (Engine.norm s).1 ^ 2 := by rw [← sq_abs]; nlinarith
  nlinarith

/-- C28 fails in binary64: for `mu = 2^30`, `lambda = 1` and normal variate 1 the draw is 0, which is outside the support. -/
theorem C28_rinvgauss_double_violated {S : Type*} [Engine S] (s : S) (h : |(Engine.norm s).1| = 1) :
    (rinvgauss (fin (2 ^ 30)) (fin 1) s).1 = fin 0 ∧ ¬ In (Set.Ioi 0) (rinvgauss (fin (2 ^ 30)) (fin 1) s).1 := by
  have key : (rinvgauss (fin (2 ^ 30)) (fin 1) s).1 = fin 0 := by
    obtain ⟨y, hy, ry, y1, y2⟩ := square (s := s) (j := 0) (k := 0) (by norm_num) (by norm_num) (by simp [h]) (by simp [h])
    norm_num at y1 y2
    obtain rfl : y = 1 := le_antisymm y2 y1
    have a1 : fin (2 ^ 30) * fin (2 ^ 30) = fin (2 ^ 60) := by rw [dmul, ← pow_add, two_pow _ (by norm_num)]
    have a2 : fin (2 ^ 60) * fin 1 = fin (2 ^ 60) := by rw [dmul, mul_one, two_pow _ (by norm_num)]
    have a3 : (4 : Fl) * fin (2 ^ 30) * fin 1 * fin 1 = fin (2 ^ 32) := by
      rw [ofNat_eq 4, dmul, show (OfNat.ofNat 4 * 2 ^ 30 : ℝ) = 2 ^ 32 by norm_num, two_pow _ (by norm_num), dmul, mul_one, two_pow _ (by norm_num), dmul, mul_one, two_pow _ (by norm_num)]
    have a5 : fin (2 ^ 32) + fin (2 ^ 60) = fin (2 ^ 60 + 2 ^ 32) := by
      rw [dadd, R_near 60 (2 ^ 52 + 2 ^ 24) (by norm_num) (by norm_num) (by norm_num) (by norm_num) (by norm_num), ofE_coe]
      norm_num
    have a6 : sqrt (fin (2 ^ 60 + 2 ^ 32)) = fin (2 ^ 30 + 2) := by
      show (if (2 : ℝ) ^ 60 + 2 ^ 32 < 0 then nan else ofE (R √(2 ^ 60 + 2 ^ 32))) = _
      have l : (2 ^ 30 + 2 - 2 ^ 10 / 2 ^ 35 : ℝ) < √(2 ^ 60 + 2 ^ 32) := Real.lt_sqrt_of_sq_lt (by norm_num)
      have u : √(2 ^ 60 + 2 ^ 32) < (2 ^ 30 + 2 : ℝ) := (Real.sqrt_lt' (by norm_num)).2 (by norm_num)
      rw [if_neg (by norm_num), R_near 30 (2 ^ 52 + 2 ^ 23) (by norm_num at l ⊢; linarith) (by norm_num at u ⊢; linarith) (by norm_num) (by norm_num)
        (by norm_num at l u ⊢; rw [abs_lt]; constructor <;> linarith), ofE_coe]
      norm_num
    have a7 : fin (2 ^ 30) * fin (2 ^ 30 + 2) = fin (2 ^ 60 + 2 ^ 31) := by
      rw [dmul, R_near 60 (2 ^ 52 + 2 ^ 23) (by norm_num) (by norm_num) (by norm_num) (by norm_num) (by norm_num), ofE_coe]
      norm_num
    have a8 : fin (2 ^ 60) - fin (2 ^ 60 + 2 ^ 31) = fin (-2 ^ 31) := by
      rw [dsub, show ((2 : ℝ) ^ 60 - (2 ^ 60 + 2 ^ 31)) = -2 ^ 31 by ring, R_neg, PoisDouble.R_two_pow 31 (by norm_num), ← EReal.coe_neg, ofE_coe]
    have a9 : (2 : Fl) * fin 1 = fin 2 := by
      rw [ofNat_eq 2, dmul, mul_one]; simpa using two_pow 1 (by norm_num)
    have a10 : fin (-2 ^ 31) / fin 2 = fin (-2 ^ 30) := by
      rw [ddiv _ two_ne_zero, show (-(2 : ℝ) ^ 31 / 2) = -2 ^ 30 by norm_num, R_neg, PoisDouble.R_two_pow 30 (by norm_num), ← EReal.coe_neg, ofE_coe]
    have r0 : ofE (R 0) = fin 0 := by rw [show R 0 = ((0 : ℝ) : EReal) from doubleRounding.zero, ofE_coe]
    have a11 : fin (2 ^ 30) + fin (-2 ^ 30) = fin 0 := by rw [dadd, add_neg_cancel, r0]
    have a12 : fin (2 ^ 30) + fin 0 = fin (2 ^ 30) := by rw [dadd, add_zero, two_pow _ (by norm_num)]
    have a13 : fin (2 ^ 30) / fin (2 ^ 30) = fin 1 := by
      rw [ddiv _ (by positivity), div_self (by positivity)]; simpa using two_pow 0 (by norm_num)
    simp only [rinvgauss]
    rw [hy, a1, a2, a2, a3, a5, a6, a7, a8, a9, a10, a11, a12, a13, if_pos]
    obtain ⟨u, h, -, h1⟩ := @runif_mem doubleLib _ _ doubleLib_next (rnorm (fin 0) (fin 1) s).2
    rw [zero_eq, one_eq, h, fin_le_fin]
    exact h1.le
  rw [key]
  refine ⟨rfl, ?_⟩
  rintro ⟨r, hr, e⟩
  rw [← Fl.fin.inj e] at hr
  exact lt_irrefl (0 : ℝ) hr

/-- The draw can also be negative: for `mu = 63 * 2^39` (about `3.5e13`), `lambda = 1` and normal variate 3 it is `-2^39`. -/
theorem C28_rinvgauss_double_negative {S : Type*} [Engine S] (s : S) (h : (Engine.norm s).1 = 3) :
    (rinvgauss (fin (63 * 2 ^ 39)) (fin 1) s).1 = fin (-2 ^ 39) := by
  have r3 : R 3 = ((3 : ℝ) : EReal) := by exact_mod_cast (show R ((3 : ℤ) : ℝ) = (((3 : ℤ) : ℝ) : EReal) from doubleRounding.int 3 (by norm_num))
  have r9 : R 9 = ((9 : ℝ) : EReal) := by exact_mod_cast (show R ((9 : ℤ) : ℝ) = (((9 : ℤ) : ℝ) : EReal) from doubleRounding.int 9 (by norm_num))
  have hy : (rnorm 0 1 s).1 * (rnorm 0 1 s).1 = fin 9 := by
    have hz : (rnorm 0 1 s).1 = fin 0 + fin 1 * fin (Engine.norm s).1 := by
      simp only [rnorm]
      rw [if_neg (by simp [norm_ok, zero_eq, one_eq])]
      simp only [zero_eq, one_eq]
    rw [hz, h, dmul, one_mul, r3, ofE_coe, dadd, zero_add, r3, ofE_coe, dmul, show (3 * 3 : ℝ) = 9 by norm_num, r9, ofE_coe]
  have near (e n : ℤ) (x y : ℝ) (h1 : 2 ^ e ≤ x) (h2 : x < 2 ^ (e + 1)) (he : -1022 ≤ e) (he' : e ≤ 1022)
      (hn : |x / 2 ^ (e - 52) - n| < 1 / 2) (hy : y = n * 2 ^ (e - 52)) : ofE (R x) = fin y := by
    rw [R_near e n h1 h2 he he' hn, ofE_coe, hy]
  have a1 : fin (63 * 2 ^ 39) * fin (63 * 2 ^ 39) = fin (3969 * 2 ^ 78) := by
    rw [dmul]
    exact near 89 (3969 * 2 ^ 41) _ _ (by norm_num) (by norm_num) (by norm_num) (by norm_num) (by norm_num) (by norm_num)
  have a2 : fin (3969 * 2 ^ 78) * fin 9 = fin (35721 * 2 ^ 78) := by
    rw [dmul]
    exact near 93 (35721 * 2 ^ 37) _ _ (by norm_num) (by norm_num) (by norm_num) (by norm_num) (by norm_num) (by norm_num)
  have a3 : fin (35721 * 2 ^ 78) * fin 9 = fin (321489 * 2 ^ 78) := by
    rw [dmul]
    exact near 96 (321489 * 2 ^ 34) _ _ (by norm_num) (by norm_num) (by norm_num) (by norm_num) (by norm_num) (by norm_num)
  have a4 : (4 : Fl) * fin (63 * 2 ^ 39) * fin 1 * fin 9 = fin (2268 * 2 ^ 39) := by
    have e1 : ofE (R (252 * 2 ^ 39)) = fin (252 * 2 ^ 39) :=
      near 46 (63 * 2 ^ 47) _ _ (by norm_num) (by norm_num) (by norm_num) (by norm_num) (by norm_num) (by norm_num)
    rw [ofNat_eq 4, dmul, show (OfNat.ofNat 4 * (63 * 2 ^ 39) : ℝ) = 252 * 2 ^ 39 by norm_num, e1, dmul, mul_one, e1, dmul]
    exact near 50 (567 * 2 ^ 43) _ _ (by norm_num) (by norm_num) (by norm_num) (by norm_num) (by norm_num) (by norm_num)
  have a5 : fin (2268 * 2 ^ 39) + fin (321489 * 2 ^ 78) = fin (321489 * 2 ^ 78 + 71 * 2 ^ 44) := by
    rw [dadd]
    exact near 96 (321489 * 2 ^ 34 + 71) _ _ (by norm_num) (by norm_num) (by norm_num) (by norm_num)
      (by norm_num [abs_lt]) (by norm_num)
  have a6 : sqrt (fin (321489 * 2 ^ 78 + 71 * 2 ^ 44)) = fin (567 * 2 ^ 39 + 2) := by
    show (if (321489 : ℝ) * 2 ^ 78 + 71 * 2 ^ 44 < 0 then nan else ofE (R √(321489 * 2 ^ 78 + 71 * 2 ^ 44))) = _
    have l : (567 * 2 ^ 39 + 2 : ℝ) < √(321489 * 2 ^ 78 + 71 * 2 ^ 44) := Real.lt_sqrt_of_sq_lt (by norm_num)
    have u : √(321489 * 2 ^ 78 + 71 * 2 ^ 44) < (567 * 2 ^ 39 + 2 + 1 / 64 : ℝ) := (Real.sqrt_lt' (by norm_num)).2 (by norm_num)
    rw [if_neg (by norm_num)]
    refine near 48 (567 * 2 ^ 43 + 32) _ _ ?_ ?_ (by norm_num) (by norm_num) ?_ (by norm_num)
    · refine le_trans ?_ l.le; norm_num
    · refine u.trans ?_; norm_num
    · generalize √(321489 * 2 ^ 78 + 71 * 2 ^ 44 : ℝ) = w at l u
      norm_num at l u ⊢
      rw [abs_lt]; constructor <;> linarith
  have a7 : fin (63 * 2 ^ 39) * fin (567 * 2 ^ 39 + 2) = fin (35721 * 2 ^ 78 + 2 ^ 46) := by
    rw [dmul, R_tie 93 (35721 * 2 ^ 37 + 32) (by norm_num) (by norm_num) (by norm_num) (by norm_num) (by decide +kernel) (by norm_num [abs_of_neg]), ofE_coe]
    norm_num
  have a8 : fin (35721 * 2 ^ 78) - fin (35721 * 2 ^ 78 + 2 ^ 46) = fin (-2 ^ 46) := by
    rw [dsub, show ((35721 : ℝ) * 2 ^ 78 - (35721 * 2 ^ 78 + 2 ^ 46)) = -2 ^ 46 by ring, R_neg, PoisDouble.R_two_pow 46 (by norm_num), ← EReal.coe_neg, ofE_coe]
  have a9 : (2 : Fl) * fin 1 = fin 2 := by
    rw [ofNat_eq 2, dmul, mul_one]; simpa using two_pow 1 (by norm_num)
  have a10 : fin (-2 ^ 46) / fin 2 = fin (-2 ^ 45) := by
    rw [ddiv _ two_ne_zero, show (-(2 : ℝ) ^ 46 / 2) = -2 ^ 45 by norm_num, R_neg, PoisDouble.R_two_pow 45 (by norm_num), ← EReal.coe_neg, ofE_coe]
  have a11 : fin (63 * 2 ^ 39) + fin (-2 ^ 45) = fin (-2 ^ 39) := by
    rw [dadd, show ((63 : ℝ) * 2 ^ 39 + -2 ^ 45) = -2 ^ 39 by norm_num, R_neg, PoisDouble.R_two_pow 39 (by norm_num), ← EReal.coe_neg, ofE_coe]
  have a12 : fin (63 * 2 ^ 39) + fin (-2 ^ 39) = fin (31 * 2 ^ 40) := by
    rw [dadd]
    exact near 44 (31 * 2 ^ 48) _ _ (by norm_num) (by norm_num) (by norm_num) (by norm_num) (by norm_num) (by norm_num)
  obtain ⟨c, ec, c1, -⟩ := R_range (x := 63 * 2 ^ 39 / (31 * 2 ^ 40)) (j := 0) (k := 1) (by norm_num) (by norm_num) (by norm_num) (by norm_num)
  have a13 : fin (63 * 2 ^ 39) / fin (31 * 2 ^ 40) = fin c := by rw [ddiv _ (by positivity), ec, ofE_coe]
  simp only [rinvgauss]
  rw [hy, a1, a2, a3, a4, a5, a6, a7, a8, a9, a10, a11, a12, a13, if_pos]
  obtain ⟨u, h, -, h1⟩ := @runif_mem doubleLib _ _ doubleLib_next (rnorm (fin 0) (fin 1) s).2
  rw [zero_eq, one_eq, h, fin_le_fin]
  rw [pow_zero] at c1
  exact h1.le.trans c1

end C33Double
end Stats

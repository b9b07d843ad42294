import Verif.Props.C40R
import Verif.Props.C49G

/-!
# C40 with rounding: reflections that fail in binary64

Next to the median the spacing of the doubles halves, so that `1/2 + h` and `1/2 - h` round differently. None of the four
distribution functions keeps `p(-x) = 1 - p(x)`, and `qlogis` does not turn around.
-/

set_option linter.unusedSectionVars false
open Classical Set
namespace Stats.C40Double
open Fl Spec Double DoubleArith ExamplesC49
set_option warn.classDefReducibility false in
attribute [local instance] doubleLib

/-- bounds on the derivative next to 0 -/
theorem near_zero {f f' : ℝ → ℝ} (h : ∀ x, HasDerivAt f (f' x) x) (h0 : f 0 = 0) {a b y : ℝ} (hy : 0 < y)
    (hb : ∀ c, 0 < c → c < y → a ≤ f' c ∧ f' c ≤ b) : a * y ≤ f y ∧ f y ≤ b * y := by
  obtain ⟨c, hc, e⟩ := exists_hasDerivAt_eq_slope f f' hy (fun x _ => (h x).continuousAt.continuousWithinAt) (fun x _ => h x)
  rw [h0, sub_zero, sub_zero, eq_div_iff hy.ne'] at e
  obtain ⟨u, v⟩ := hb c hc.1 hc.2
  rw [← e]
  exact ⟨mul_le_mul_of_nonneg_right u hy.le, mul_le_mul_of_nonneg_right v hy.le⟩

theorem erf_near {y : ℝ} (hy : 0 < y) (h : y ≤ 1 / 2 ^ 52) : 1.12 * y ≤ Spec.erf y ∧ Spec.erf y ≤ 1.13 * y := by
  have p1 : (1.772 : ℝ) ≤ √Real.pi := Real.le_sqrt_of_sq_le (by have := Real.pi_gt_d4; norm_num at this ⊢; linarith)
  have p2 : √Real.pi ≤ (1.773 : ℝ) := Real.sqrt_le_iff.2 ⟨by norm_num, by have := Real.pi_lt_d4; norm_num at this ⊢; linarith⟩
  have p0 : 0 < √Real.pi := by linarith
  refine near_zero hasDerivAt_erf erf_zero hy fun c h0 h1 => ?_
  have e1 : Real.exp (-c ^ 2) ≤ 1 := Real.exp_le_one_iff.2 (by nlinarith)
  have e2 : (0.999 : ℝ) ≤ Real.exp (-c ^ 2) := by
    have := Real.add_one_le_exp (-c ^ 2)
    have : c ≤ 1 / 100 := by norm_num at h ⊢; linarith
    nlinarith
  constructor
  · rw [div_mul_eq_mul_div, le_div_iff₀ p0]; nlinarith
  · rw [div_mul_eq_mul_div, div_le_iff₀ p0]; nlinarith

theorem arctan_near {y : ℝ} (hy : 0 < y) (h : y ≤ 1 / 2 ^ 52) : 0.99 * y ≤ Real.arctan y ∧ Real.arctan y ≤ 1 * y := by
  refine near_zero Real.hasDerivAt_arctan Real.arctan_zero hy fun c h0 h1 => ?_
  have : c ≤ 1 / 100 := by norm_num at h ⊢; linarith
  constructor
  · rw [le_div_iff₀ (by positivity)]; nlinarith
  · rw [div_le_one (by positivity)]; nlinarith

theorem tanh_near {y : ℝ} (hy : 0 < y) (h : y ≤ 1 / 2 ^ 52) : 0.9 * y ≤ Real.tanh y ∧ Real.tanh y ≤ 1 * y := by
  have h' : ∀ x, HasDerivAt Real.tanh (1 / Real.cosh x ^ 2) x := fun x => by
    have h1 : HasDerivAt (fun x => Real.sinh x / Real.cosh x) _ x :=
      (Real.hasDerivAt_sinh x).div (Real.hasDerivAt_cosh x) (Real.cosh_pos x).ne'
    have e : (fun x => Real.sinh x / Real.cosh x) = Real.tanh := by ext x; rw [Real.tanh_eq_sinh_div_cosh]
    rw [e] at h1
    convert h1 using 1
    have := Real.cosh_sq x
    have e2 : Real.cosh x * Real.cosh x - Real.sinh x * Real.sinh x = 1 := by nlinarith
    rw [e2]
  refine near_zero h' Real.tanh_zero hy fun c h0 h1 => ?_
  have hc : c ≤ 1 / 100 := by norm_num at h ⊢; linarith
  have a : 1 ≤ Real.cosh c := Real.one_le_cosh c
  have b : Real.cosh c ≤ 1.02 := by
    have h2 : Real.cosh c ≤ Real.exp c := by
      rw [Real.cosh_eq]
      have : Real.exp (-c) ≤ Real.exp c := Real.exp_le_exp.2 (by linarith)
      linarith
    have h3 := Real.add_one_le_exp (-c)
    rw [Real.exp_neg] at h3
    have h4 := Real.exp_pos c
    have h5 : Real.exp c * (1 - c) ≤ 1 := by
      have := mul_le_mul_of_nonneg_left h3 h4.le
      rw [mul_inv_cancel₀ h4.ne'] at this
      linarith
    nlinarith
  constructor
  · rw [le_div_iff₀ (by positivity)]; nlinarith
  · rw [div_le_one (by positivity)]; nlinarith

/-- `half * (1 + e)` and `half * (1 - e)` -/
theorem around_one {e : ℝ} (h1 : 0.51 / 2 ^ 53 ≤ e) (h2 : e ≤ 0.99 / 2 ^ 53) :
    half * (1 + fin e) = fin (1 / 2) ∧ half * (1 + fin (-e)) = fin (1 / 2 - 1 / 2 ^ 54) := by
  norm_num at h1 h2
  constructor
  · have : R (1 + e) = ((1 : ℝ) : EReal) := by
      rw [R_near 0 (2 ^ 52) (by norm_num; linarith) (by norm_num; linarith) (by norm_num) (by norm_num)
        (by rw [abs_lt]; norm_num; constructor <;> linarith)]
      norm_num
    rw [one_eq, dadd, this, ofE_coe, half_mul_R (by
      have := R_pow 1 (by norm_num); norm_num at this ⊢; exact this)]
    norm_num
  · have : R (1 + -e) = ((1 - 1 / 2 ^ 53 : ℝ) : EReal) := by
      rw [R_near (-1) (2 ^ 53 - 1) (by norm_num; linarith) (by norm_num; linarith) (by norm_num) (by norm_num)
        (by rw [abs_lt]; norm_num; constructor <;> linarith)]
      norm_num
    rw [one_eq, dadd, this, ofE_coe, half_mul_R (by
      rw [R_near (-2) (2 ^ 53 - 1) (by norm_num) (by norm_num) (by norm_num) (by norm_num) (by norm_num)]
      norm_num)]
    norm_num

/-- `half + h` and `half - h` -/
theorem around_half {e : ℝ} (h1 : 0.51 / 2 ^ 54 ≤ e) (h2 : e ≤ 1 / 2 ^ 54) :
    half + fin e = fin (1 / 2) ∧ half + fin (-e) = fin (1 / 2 - 1 / 2 ^ 54) := by
  norm_num at h1 h2
  have hh : half = fin (1 / 2) := half_eq
  constructor
  · have : R (1 / 2 + e) = ((1 / 2 : ℝ) : EReal) := by
      rcases h2.lt_or_eq with h2 | h2
      · rw [R_near (-1) (2 ^ 52) (by norm_num; linarith) (by norm_num; linarith) (by norm_num) (by norm_num)
          (by rw [abs_lt]; norm_num; constructor <;> linarith)]
        norm_num
      · rw [h2, R_tie (-1) (2 ^ 52) (by norm_num) (by norm_num) (by norm_num) (by norm_num) (by decide +kernel) (by norm_num)]
        norm_num
    rw [hh, dadd, this, ofE_coe]
  · have : R (1 / 2 + -e) = ((1 / 2 - 1 / 2 ^ 54 : ℝ) : EReal) := by
      rw [R_near (-2) (2 ^ 53 - 1) (by norm_num; linarith) (by norm_num; linarith) (by norm_num) (by norm_num)
        (by rw [abs_lt]; norm_num; constructor <;> linarith)]
      norm_num
    rw [hh, dadd, this, ofE_coe]

theorem one_sub_half : (1 : Fl) - fin (1 / 2) = fin (1 / 2) := by
  rw [one_eq, dsub]
  have := R_pow 1 (by norm_num)
  norm_num at this ⊢
  rw [this, ofE_coe]

/-- `(x - 0) / 1` -/
theorem std_exact {x : ℝ} (h : R x = (x : EReal)) : (fin x - (0 : Fl)) / 1 = fin x := by
  rw [zero_eq, one_eq, dsub, sub_zero, h, ofE_coe, ddiv _ one_ne_zero, div_one, h, ofE_coe]

theorem R_neg_exact {x : ℝ} (h : R x = (x : EReal)) : R (-x) = ((-x : ℝ) : EReal) := by rw [R_neg, h, EReal.coe_neg]

/-- Binary64: the distribution function at `2^-53` and at `-2^-53`. -/
theorem C40_pnorm_reflect_violated : pnorm (fin (1 / 2 ^ 53)) 0 1 false = fin (1 / 2) ∧
    pnorm (fin (-(1 / 2 ^ 53))) 0 1 false = fin (1 / 2 - 1 / 2 ^ 54) ∧
    pnorm (fin (-(1 / 2 ^ 53))) 0 1 false ≠ 1 - pnorm (fin (1 / 2 ^ 53)) 0 1 false := by
  have ex := R_pow 53 (by norm_num)
  obtain ⟨s1, s2⟩ := sqrt2_near
  have s0 : 0 < (Lib.sqrt2 : ℝ) := Lib.sqrt2_pos
  have q1 : 0.7 / 2 ^ 53 ≤ 1 / 2 ^ 53 / (Lib.sqrt2 : ℝ) := by rw [le_div_iff₀ s0]; norm_num at s2 ⊢; linarith
  have q2 : 1 / 2 ^ 53 / (Lib.sqrt2 : ℝ) ≤ 0.71 / 2 ^ 53 := by rw [div_le_iff₀ s0]; norm_num at s1 ⊢; linarith
  obtain ⟨t, et, t1, t2⟩ := R_pos (x := 1 / 2 ^ 53 / (Lib.sqrt2 : ℝ)) (le_trans (by norm_num) q1)
    (le_big (q2.trans (by norm_num)))
  have et' : R (-(1 / 2 ^ 53) / (Lib.sqrt2 : ℝ)) = ((-t : ℝ) : EReal) := by rw [neg_div, R_neg, et, EReal.coe_neg]
  have t3 : 0.69 / 2 ^ 53 ≤ t := by norm_num at q1 t1 ⊢; linarith
  have t4 : t ≤ 0.72 / 2 ^ 53 := by norm_num at q2 t2 ⊢; linarith
  obtain ⟨f1, f2⟩ := erf_near (y := t) (lt_of_lt_of_le (by norm_num) t3) (t4.trans (by norm_num))
  obtain ⟨e, ee, e1, e2⟩ := R_pos (x := Spec.erf t) (by norm_num at t3 f1 ⊢; linarith)
    (le_big (by norm_num at t4 f2 ⊢; linarith))
  have ee' : R (Spec.erf (-t)) = ((-e : ℝ) : EReal) := by rw [erf_neg, R_neg, ee, EReal.coe_neg]
  obtain ⟨r1, r2⟩ := around_one (e := e) (by norm_num at t3 f1 e1 ⊢; linarith) (by norm_num at t4 f2 e2 ⊢; linarith)
  have a : pnorm (fin (1 / 2 ^ 53)) 0 1 false = fin (1 / 2) := by
    rw [pnorm, if_neg (by simp [norm_ok', norm_ok]), if_neg (by simp), log_if_false, std_exact ex, pnorm_compute, SQRT2,
      ddiv _ s0.ne', et, ofE_coe]
    show half * (1 + ofE (R (Spec.erf t))) = _
    rw [ee, ofE_coe, r1]
  have b : pnorm (fin (-(1 / 2 ^ 53))) 0 1 false = fin (1 / 2 - 1 / 2 ^ 54) := by
    rw [pnorm, if_neg (by simp [norm_ok', norm_ok]), if_neg (by simp), log_if_false, std_exact (R_neg_exact ex), pnorm_compute, SQRT2,
      ddiv _ s0.ne', et', ofE_coe]
    show half * (1 + ofE (R (Spec.erf (-t)))) = _
    rw [ee', ofE_coe, r2]
  refine ⟨a, b, ?_⟩
  rw [a, b, one_sub_half]
  intro h
  have := Fl.fin.inj h
  norm_num at this

/-- Binary64: the distribution function at `5·2^-55` and at `-5·2^-55`. -/
theorem C40_pcauchy_reflect_violated : pcauchy (fin (5 / 2 ^ 55)) 0 1 false = fin (1 / 2) ∧
    pcauchy (fin (-(5 / 2 ^ 55))) 0 1 false = fin (1 / 2 - 1 / 2 ^ 54) ∧
    pcauchy (fin (-(5 / 2 ^ 55))) 0 1 false ≠ 1 - pcauchy (fin (5 / 2 ^ 55)) 0 1 false := by
  have ex : R (5 / 2 ^ 55) = ((5 / 2 ^ 55 : ℝ) : EReal) := by
    rw [R_near (-53) (5 * 2 ^ 50) (by norm_num) (by norm_num) (by norm_num) (by norm_num) (by norm_num)]
    norm_num
  have p : (Lib.pi : ℝ) = 884279719003555 / 2 ^ 48 := double_pi
  have p0 : (0 : ℝ) < Lib.pi := Lib.pi_pos
  obtain ⟨f1, f2⟩ := arctan_near (y := 5 / 2 ^ 55) (by norm_num) (by norm_num)
  obtain ⟨t, et, t1, t2⟩ := R_pos (x := Real.arctan (5 / 2 ^ 55)) (by norm_num at f1 ⊢; linarith)
    (le_big (by norm_num at f2 ⊢; linarith))
  have et' : R (Real.arctan (-(5 / 2 ^ 55))) = ((-t : ℝ) : EReal) := by rw [Real.arctan_neg, R_neg, et, EReal.coe_neg]
  have t3 : 0.98 * (5 / 2 ^ 55) ≤ t := by norm_num at f1 t1 ⊢; linarith
  have t4 : t ≤ 1.01 * (5 / 2 ^ 55) := by norm_num at f2 t2 ⊢; linarith
  have q1 : 0.77 / 2 ^ 54 ≤ t / (Lib.pi : ℝ) := by rw [le_div_iff₀ p0, p]; norm_num at t3 ⊢; linarith
  have q2 : t / (Lib.pi : ℝ) ≤ 0.81 / 2 ^ 54 := by rw [div_le_iff₀ p0, p]; norm_num at t4 ⊢; linarith
  obtain ⟨e, ee, e1, e2⟩ := R_pos (x := t / (Lib.pi : ℝ)) (le_trans (by norm_num) q1) (le_big (q2.trans (by norm_num)))
  have ee' : R (-t / (Lib.pi : ℝ)) = ((-e : ℝ) : EReal) := by rw [neg_div, R_neg, ee, EReal.coe_neg]
  obtain ⟨r1, r2⟩ := around_half (e := e) (by norm_num at q1 e1 ⊢; linarith) (by norm_num at q2 e2 ⊢; linarith)
  have tl : |t| ≤ 1 := by rw [abs_le]; norm_num at t3 t4 ⊢; constructor <;> linarith
  -- the library function is capped at half of the rounded pi
  have cap : ∀ x y : ℝ, |y| ≤ 1 → Double.R (Real.arctan x) = (y : EReal) → atan (fin x) = fin y := fun x y hy h => by
    show ofE (max ((-(Lib.pi / 2) : ℝ) : EReal) (min (Double.R (Real.arctan x)) ((Lib.pi / 2 : ℝ) : EReal))) = _
    rw [h, min_eq_left, max_eq_right, ofE_coe]
    all_goals
      have := abs_le.1 hy
      rw [EReal.coe_le_coe_iff, p]
      norm_num; linarith
  have a : pcauchy (fin (5 / 2 ^ 55)) 0 1 false = fin (1 / 2) := by
    rw [pcauchy, if_neg (by simp [cauchy_ok', cauchy_ok]), if_neg (by simp), log_if_false, std_exact ex, pcauchy_compute, PI]
    rw [cap _ _ tl et, ddiv _ p0.ne', ee, ofE_coe, r1]
  have b : pcauchy (fin (-(5 / 2 ^ 55))) 0 1 false = fin (1 / 2 - 1 / 2 ^ 54) := by
    rw [pcauchy, if_neg (by simp [cauchy_ok', cauchy_ok]), if_neg (by simp), log_if_false, std_exact (R_neg_exact ex),
      pcauchy_compute, PI]
    rw [cap _ _ (by rwa [_root_.abs_neg]) et', ddiv _ p0.ne', ee', ofE_coe, r2]
  refine ⟨a, b, ?_⟩
  rw [a, b, one_sub_half]
  intro h
  have := Fl.fin.inj h
  norm_num at this

/-- Binary64: the distribution function at `3·2^-54` and at `-3·2^-54`. -/
theorem C40_plogis_reflect_violated : plogis (fin (3 / 2 ^ 54)) 0 1 false = fin (1 / 2) ∧
    plogis (fin (-(3 / 2 ^ 54))) 0 1 false = fin (1 / 2 - 1 / 2 ^ 54) ∧
    plogis (fin (-(3 / 2 ^ 54))) 0 1 false ≠ 1 - plogis (fin (3 / 2 ^ 54)) 0 1 false := by
  have ex : R (3 / 2 ^ 54) = ((3 / 2 ^ 54 : ℝ) : EReal) := by
    rw [R_near (-53) (3 * 2 ^ 51) (by norm_num) (by norm_num) (by norm_num) (by norm_num) (by norm_num)]
    norm_num
  have ex2 : R (3 / 2 ^ 54 / 2) = ((3 / 2 ^ 55 : ℝ) : EReal) := by
    rw [R_near (-54) (3 * 2 ^ 51) (by norm_num) (by norm_num) (by norm_num) (by norm_num) (by norm_num)]
    norm_num
  have ex2' : R (-(3 / 2 ^ 54) / 2) = ((-(3 / 2 ^ 55) : ℝ) : EReal) := by rw [neg_div, R_neg, ex2, EReal.coe_neg]
  have two : (2 : Fl) * 1 = fin 2 := by
    rw [ofNat_eq 2, one_eq, dmul, mul_one]
    have := PoisDouble.R_two_pow 1 (by norm_num)
    norm_num at this ⊢
    rw [this]; rfl
  obtain ⟨f1, f2⟩ := tanh_near (y := 3 / 2 ^ 55) (by norm_num) (by norm_num)
  obtain ⟨e, ee, e1, e2⟩ := R_pos (x := Real.tanh (3 / 2 ^ 55)) (by norm_num at f1 ⊢; linarith)
    (le_big (by norm_num at f2 ⊢; linarith))
  have ee' : R (Real.tanh (-(3 / 2 ^ 55))) = ((-e : ℝ) : EReal) := by rw [Real.tanh_neg, R_neg, ee, EReal.coe_neg]
  obtain ⟨r1, r2⟩ := around_one (e := e) (by norm_num at f1 e1 ⊢; linarith) (by norm_num at f2 e2 ⊢; linarith)
  have a : plogis (fin (3 / 2 ^ 54)) 0 1 false = fin (1 / 2) := by
    rw [plogis, if_neg (by simp [logis_ok', logis_ok]), if_neg (by simp), log_if_false, two, zero_eq, dsub, sub_zero, ex, ofE_coe,
      ddiv _ two_ne_zero, ex2, ofE_coe, plogis_compute]
    show half * (1 + ofE (R (Real.tanh (3 / 2 ^ 55)))) = _
    rw [ee, ofE_coe, r1]
  have b : plogis (fin (-(3 / 2 ^ 54))) 0 1 false = fin (1 / 2 - 1 / 2 ^ 54) := by
    rw [plogis, if_neg (by simp [logis_ok', logis_ok]), if_neg (by simp), log_if_false, two, zero_eq, dsub, sub_zero, R_neg_exact ex,
      ofE_coe, ddiv _ two_ne_zero, ex2', ofE_coe, plogis_compute]
    show half * (1 + ofE (R (Real.tanh (-(3 / 2 ^ 55))))) = _
    rw [ee', ofE_coe, r2]
  refine ⟨a, b, ?_⟩
  rw [a, b, one_sub_half]
  intro h
  have := Fl.fin.inj h
  norm_num at this

/-- Binary64: the distribution function at `2^-53` and at `-2^-53`. -/
theorem C40_plaplace_reflect_violated : plaplace (fin (1 / 2 ^ 53)) 0 1 false = fin (1 / 2) ∧
    plaplace (fin (-(1 / 2 ^ 53))) 0 1 false = fin (1 / 2 - 1 / 2 ^ 54) ∧
    plaplace (fin (-(1 / 2 ^ 53))) 0 1 false ≠ 1 - plaplace (fin (1 / 2 ^ 53)) 0 1 false := by
  have ex := R_pow 53 (by norm_num)
  have ex54 := R_pow 54 (by norm_num)
  have hf : R (1 / 2) = ((1 / 2 : ℝ) : EReal) := by simpa using R_pow 1 (by norm_num)
  have hh : half = fin (1 / 2) := half_eq
  -- `exp(-2^-53)`
  have ee : R (Real.exp (-(1 / 2 ^ 53))) = ((1 - 1 / 2 ^ 53 : ℝ) : EReal) := by
    have a := Real.add_one_le_exp (-(1 / 2 ^ 53 : ℝ))
    have b : Real.exp (-(1 / 2 ^ 53)) ≤ 1 - 0.9 / 2 ^ 53 := by
      have := Real.add_one_le_exp (1 / 2 ^ 53 : ℝ)
      rw [Real.exp_neg]
      refine (inv_anti₀ (by norm_num) this).trans ?_
      norm_num
    rw [R_near (-1) (2 ^ 53 - 1) (by norm_num at a b ⊢; linarith) (b.trans_lt (by norm_num)) (by norm_num) (by norm_num)
      (by rw [abs_lt]; norm_num at a b ⊢; constructor <;> linarith)]
    norm_num
  have core : (1 : Fl) - exp (-abs (fin (1 / 2 ^ 53)) / 1) = fin (1 / 2 ^ 53) := by
    have : -abs (fin (1 / 2 ^ 53)) / (1 : Fl) = fin (-(1 / 2 ^ 53)) := by
      rw [abs_fin, abs_of_pos (by positivity), neg_fin, one_eq, ddiv _ one_ne_zero, div_one, R_neg_exact ex, ofE_coe]
    rw [this]
    show (1 : Fl) - ofE (R (Real.exp (-(1 / 2 ^ 53)))) = _
    rw [ee, ofE_coe, one_eq, dsub, show (1 : ℝ) - (1 - 1 / 2 ^ 53) = 1 / 2 ^ 53 by ring, ex, ofE_coe]
  obtain ⟨r1, r2⟩ := around_half (e := 1 / 2 ^ 54) (by norm_num) le_rfl
  rw [hh] at r1 r2
  have e54 : (1 : ℝ) / 2 * (1 / 2 ^ 53) = 1 / 2 ^ 54 := by norm_num
  have a : plaplace (fin (1 / 2 ^ 53)) 0 1 false = fin (1 / 2) := by
    have s : sgn (fin (1 / 2 ^ 53)) = fin 1 := by simp [sgn_fin]
    rw [plaplace, if_neg (by simp [laplace_ok', laplace_ok]), if_neg (by simp), log_if_false, zero_eq, dsub, sub_zero, ex, ofE_coe,
      plaplace_compute, core, s, hh, dmul, mul_one, hf, ofE_coe, dmul, e54, ex54, ofE_coe, r1]
  have b : plaplace (fin (-(1 / 2 ^ 53))) 0 1 false = fin (1 / 2 - 1 / 2 ^ 54) := by
    have s : sgn (fin (-(1 / 2 ^ 53))) = fin (-1) := by simp [sgn_fin]
    rw [plaplace, if_neg (by simp [laplace_ok', laplace_ok]), if_neg (by simp), log_if_false, zero_eq, dsub, sub_zero,
      R_neg_exact ex, ofE_coe, plaplace_compute, abs_fin, _root_.abs_neg, ← abs_fin, core, s, hh, dmul, mul_neg_one, R_neg_exact hf,
      ofE_coe, dmul, neg_mul, e54, R_neg_exact ex54, ofE_coe, r2]
  refine ⟨a, b, ?_⟩
  rw [a, b, one_sub_half]
  intro h
  have := Fl.fin.inj h
  norm_num at this

/-- Binary64: the t distribution function with 1, 2 and infinitely many degrees of freedom. -/
theorem C40_pt_reflect_violated :
    (pt (fin (5 / 2 ^ 55)) 1 false = fin (1 / 2) ∧ pt (fin (-(5 / 2 ^ 55))) 1 false = fin (1 / 2 - 1 / 2 ^ 54)) ∧
    (pt (fin (1 / 2 ^ 53)) 2 false = fin (1 / 2) ∧ pt (fin (-(1 / 2 ^ 53))) 2 false = fin (1 / 2 - 1 / 2 ^ 54)) ∧
    (pt (fin (1 / 2 ^ 53)) pinf false = fin (1 / 2) ∧ pt (fin (-(1 / 2 ^ 53))) pinf false = fin (1 / 2 - 1 / 2 ^ 54)) := by
  have ex := R_pow 53 (by norm_num)
  have eps1 : ¬ (1 : ℝ) < Lib.eps := by rw [deps]; norm_num
  have eps2 : ¬ (2 : ℝ) < Lib.eps := by rw [deps]; norm_num
  refine ⟨?_, ?_, ?_⟩
  · have ex : R (5 / 2 ^ 55) = ((5 / 2 ^ 55 : ℝ) : EReal) := by
      rw [R_near (-53) (5 * 2 ^ 50) (by norm_num) (by norm_num) (by norm_num) (by norm_num) (by norm_num)]
      norm_num
    have key : ∀ x : ℝ, R x = (x : EReal) → pt (fin x) 1 false = pcauchy (fin x) 0 1 false := fun x hx => by
      rw [pcauchy, if_neg (by simp [cauchy_ok', cauchy_ok]), if_neg (by simp), std_exact hx, pt,
        if_neg (by simp [t_ok', t_ok, one_eq, eps, eps1]), if_neg (by simp), if_neg (by simp), if_neg (by simp), pt_compute,
        if_pos (by simp)]
    rw [key _ ex, key _ (R_neg_exact ex)]
    exact ⟨C40_pcauchy_reflect_violated.1, C40_pcauchy_reflect_violated.2.1⟩
  · obtain ⟨s1, s2⟩ := sqrt2_near
    have s0 : 0 < (Lib.sqrt2 : ℝ) := Lib.sqrt2_pos
    have two : R 2 = ((2 : ℝ) : EReal) := by
      have := PoisDouble.R_two_pow 1 (by norm_num)
      rwa [pow_one] at this
    have r2 : R √2 = ((Lib.sqrt2 : ℝ) : EReal) := by
      have a : (1 : ℝ) ≤ √2 := Real.one_le_sqrt.2 (by norm_num)
      have b : √2 ≤ 2 := Real.sqrt_le_iff.2 ⟨by norm_num, by norm_num⟩
      obtain ⟨y, e, -, -⟩ := R_pos (x := √2) (le_trans (by norm_num) a) (le_big (b.trans (by norm_num)))
      have : (Lib.sqrt2 : ℝ) = (R √2).toReal := rfl
      rw [this, e, EReal.toReal_coe]
    have sq : ∀ x : ℝ, x * x = 1 / 2 ^ 106 → sqrt (fin x * fin x + 2) = fin Lib.sqrt2 := fun x hx => by
      have a : fin x * fin x = fin (1 / 2 ^ 106) := by rw [dmul, hx, R_pow 106 (by norm_num), ofE_coe]
      have b : R (1 / 2 ^ 106 + 2) = ((2 : ℝ) : EReal) := by
        rw [R_near 1 (2 ^ 52) (by norm_num) (by norm_num) (by norm_num) (by norm_num) (by norm_num)]
        norm_num
      rw [a, ofNat_eq 2, dadd]
      rw [show (OfNat.ofNat 2 : ℝ) = 2 from rfl, b, ofE_coe]
      show (if (2 : ℝ) < 0 then nan else ofE (R √2)) = _
      rw [if_neg (by norm_num), r2, ofE_coe]
    obtain ⟨d, ed, d1, d2⟩ := R_pos (x := 2 * (Lib.sqrt2 : ℝ)) (by norm_num at s1 ⊢; linarith)
      (le_big (by norm_num at s2 ⊢; linarith))
    have d3 : (2.82 : ℝ) ≤ d := by norm_num at s1 d1 ⊢; linarith
    have d4 : d ≤ (2.83 : ℝ) := by norm_num at s2 d2 ⊢; linarith
    have d0 : 0 < d := by linarith
    have hd : (2 : Fl) * fin Lib.sqrt2 = fin d := by
      rw [ofNat_eq 2, dmul, show (OfNat.ofNat 2 : ℝ) = 2 from rfl, ed, ofE_coe]
    have q1 : 0.7 / 2 ^ 54 ≤ 1 / 2 ^ 53 / d := by rw [le_div_iff₀ d0]; norm_num at d4 ⊢; linarith
    have q2 : 1 / 2 ^ 53 / d ≤ 0.8 / 2 ^ 54 := by rw [div_le_iff₀ d0]; norm_num at d3 ⊢; linarith
    obtain ⟨e, ee, e1, e2⟩ := R_pos (x := 1 / 2 ^ 53 / d) (le_trans (by norm_num) q1) (le_big (q2.trans (by norm_num)))
    have ee' : R (-(1 / 2 ^ 53) / d) = ((-e : ℝ) : EReal) := by rw [neg_div, R_neg, ee, EReal.coe_neg]
    obtain ⟨r1, r2⟩ := around_half (e := e) (by norm_num at q1 e1 ⊢; linarith) (by norm_num at q2 e2 ⊢; linarith)
    have key : ∀ x : ℝ, x * x = 1 / 2 ^ 106 → pt (fin x) 2 false = half + ofE (R (x / d)) := fun x hx => by
      rw [pt, if_neg (by simp [t_ok', t_ok, ofNat_eq, eps, eps2]), if_neg (by simp), if_neg (by simp), if_neg (by simp [ofNat_eq]),
        log_if_false, pt_compute, if_neg (by simp [ofNat_eq, one_eq]), if_pos (by simp [ofNat_eq]), sq x hx, hd, ddiv _ d0.ne']
    rw [key _ (by norm_num), key _ (by norm_num), ee, ee', ofE_coe, ofE_coe]
    exact ⟨r1, r2⟩
  · have key : ∀ x : ℝ, pt (fin x) pinf false = pnorm (fin x) 0 1 false := fun x => by
      rw [pt, if_neg (by simp [t_ok', t_ok]), if_neg (by simp), if_neg (by simp), if_pos (by simp)]
    rw [key, key]
    exact ⟨C40_pnorm_reflect_violated.1, C40_pnorm_reflect_violated.2.1⟩

/-- Binary64: the quantiles of the two doubles `1/2 - 2^-53` and `1/2 + 2^-53`, whose sum is 1. -/
theorem C40_qlogis_reflect_violated : qlogis (fin (1 / 2 - 1 / 2 ^ 53)) 0 1 = fin (-(1 / 2 ^ 51 + 1 / 2 ^ 103)) ∧
    qlogis (fin (1 / 2 + 1 / 2 ^ 53)) 0 1 = fin (1 / 2 ^ 51 - 1 / 2 ^ 103) := by
  have c1 : R (1 / 2 + 1 / 2 ^ 53) = ((1 / 2 + 1 / 2 ^ 53 : ℝ) : EReal) := by
    rw [R_near (-1) (2 ^ 52 + 1) (by norm_num) (by norm_num) (by norm_num) (by norm_num) (by norm_num)]
    norm_num
  have c2 : R (1 / 2 - 1 / 2 ^ 53) = ((1 / 2 - 1 / 2 ^ 53 : ℝ) : EReal) := by
    rw [R_near (-2) (2 ^ 53 - 2) (by norm_num) (by norm_num) (by norm_num) (by norm_num) (by norm_num)]
    norm_num
  have fin_out : ∀ {l : ℝ}, R l = (l : EReal) → (0 : Fl) + 1 * fin l = fin l := fun {l} h => by
    rw [zero_eq, one_eq, dmul, one_mul, h, ofE_coe, dadd, zero_add, h, ofE_coe]
  constructor
  · have d : R ((1 / 2 - 1 / 2 ^ 53) / (1 / 2 + 1 / 2 ^ 53)) = ((1 - 1 / 2 ^ 51 : ℝ) : EReal) := by
      rw [R_near (-1) (2 ^ 53 - 4) (by norm_num) (by norm_num) (by norm_num) (by norm_num) (by norm_num [abs_lt])]
      norm_num
    have l : R (Real.log (1 - 1 / 2 ^ 51)) = ((-(1 / 2 ^ 51 + 1 / 2 ^ 103) : ℝ) : EReal) := by
      have u : |1 / 2 ^ 51 + 1 / 2 ^ 103 + Real.log (1 - 1 / 2 ^ 51)| ≤ 1 / 2 ^ 152 := by
        have := Real.abs_log_sub_add_sum_range_le (x := 1 / 2 ^ 51) (by norm_num [abs_lt]) 2
        simp only [Finset.sum_range_succ, Finset.sum_range_zero] at this
        norm_num at this ⊢
        exact this.trans (by norm_num)
      rw [abs_le] at u
      rw [← neg_neg (Real.log _), R_neg, R_near (-51) (2 ^ 52 + 1) (by norm_num at u ⊢; linarith) (by norm_num at u ⊢; linarith)
        (by norm_num) (by norm_num) (by rw [abs_lt]; norm_num at u ⊢; constructor <;> linarith), ← EReal.coe_neg]
      norm_num
    rw [qlogis, if_neg (by simp [logis_ok]), if_neg (by simp [prob_val_ok]; norm_num), if_neg (by simp), if_neg (by simp),
      if_neg (by simp; norm_num), if_neg (by simp; norm_num), qlogis_compute, one_eq, dsub,
      show (1 : ℝ) - (1 / 2 - 1 / 2 ^ 53) = 1 / 2 + 1 / 2 ^ 53 by ring, c1, ofE_coe, ddiv _ (by norm_num), d, ofE_coe, log_fin,
      if_neg (by norm_num), if_neg (by norm_num), ← one_eq]
    show 0 + 1 * ofE (R (Real.log (1 - 1 / 2 ^ 51))) = _
    rw [l, ofE_coe, fin_out]
    rw [R_neg, R_near (-51) (2 ^ 52 + 1) (by norm_num) (by norm_num) (by norm_num) (by norm_num) (by norm_num), ← EReal.coe_neg]
    norm_num
  · have d : R ((1 / 2 + 1 / 2 ^ 53) / (1 / 2 - 1 / 2 ^ 53)) = ((1 + 1 / 2 ^ 51 : ℝ) : EReal) := by
      rw [R_near 0 (2 ^ 52 + 2) (by norm_num) (by norm_num) (by norm_num) (by norm_num) (by norm_num [abs_lt])]
      norm_num
    have l : R (Real.log (1 + 1 / 2 ^ 51)) = ((1 / 2 ^ 51 - 1 / 2 ^ 103 : ℝ) : EReal) := by
      have u : |-(1 / 2 ^ 51) + 1 / 2 ^ 103 + Real.log (1 + 1 / 2 ^ 51)| ≤ 1 / 2 ^ 152 := by
        have := Real.abs_log_sub_add_sum_range_le (x := -(1 / 2 ^ 51)) (by norm_num [abs_lt]) 2
        simp only [Finset.sum_range_succ, Finset.sum_range_zero] at this
        norm_num at this ⊢
        exact this.trans (by norm_num)
      rw [abs_le] at u
      rw [R_near (-52) (2 ^ 53 - 2) (by norm_num at u ⊢; linarith) (by norm_num at u ⊢; linarith)
        (by norm_num) (by norm_num) (by rw [abs_lt]; norm_num at u ⊢; constructor <;> linarith)]
      norm_num
    rw [qlogis, if_neg (by simp [logis_ok]), if_neg (by simp [prob_val_ok]; norm_num), if_neg (by simp), if_neg (by simp),
      if_neg (by simp; norm_num), if_neg (by simp; norm_num), qlogis_compute, one_eq, dsub,
      show (1 : ℝ) - (1 / 2 + 1 / 2 ^ 53) = 1 / 2 - 1 / 2 ^ 53 by ring, c2, ofE_coe, ddiv _ (by norm_num), d, ofE_coe, log_fin,
      if_neg (by norm_num), if_neg (by norm_num), ← one_eq]
    show 0 + 1 * ofE (R (Real.log (1 + 1 / 2 ^ 51))) = _
    rw [l, ofE_coe, fin_out]
    rw [R_near (-52) (2 ^ 53 - 2) (by norm_num) (by norm_num) (by norm_num) (by norm_num) (by norm_num)]
    norm_num

end Stats.C40Double

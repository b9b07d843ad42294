import Verif.Lemmas.DoubleCalc
import Verif.Props.C10

/-!
# C10 for `pt` and `pf` with rounding

With 1 or infinitely many degrees of freedom `pt` is monotone in every arithmetic whose library functions are, and so is `pf` with an
infinite second number of degrees of freedom. With 2 degrees of freedom `pt` falls back to 1/2 in binary64 as soon as `x*x` overflows,
and `pf` falls between two neighbouring doubles where `1 + x` is rounded up.
-/

set_option linter.unusedSectionVars false
open Classical
namespace Stats
open Fl Spec

section
variable [Lib] [MonoLib]

/-- Student's t, 1 degree of freedom -/
theorem C10_pt_one_rounded : MonoCdf fun x => pt x (fin 1) := by
  have he : Lib.eps ≤ 1 := Lib.eps_le.trans (by norm_num)
  refine mono_of_fin MonoLib.log_mono (C11_pt 1 he) (fun x => C07_pt x _) (fun x => (C09_pt_partial x (fin 1) (by simp)).1) ?_
  intro x y h
  simp [pt, t_ok', t_ok, eps, not_lt.2 he, pt_compute, pcauchy_compute, -half_eq]
  rw [half_eq]
  exact add_mono _ (div_mono Lib.pi_pos (atan_mono (by simpa using h)))

/-- infinitely many degrees of freedom -/
theorem C10_pt_inf_rounded : MonoCdf fun x => pt x pinf := by
  have e : ∀ (x : Fl) b, pt x pinf b = pnorm x (fin 0) (fin 1) b := by
    intro x b
    cases x <;> simp [pt, t_ok', t_ok, eps, zero_eq, one_eq]
    all_goals cases b <;> simp [pnorm, norm_ok', norm_ok, pnorm_limit_vals]
  intro x y h b
  show pt x pinf b ≤ pt y pinf b
  rw [e, e]
  exact C10_pnorm 0 zero_le_one x y h b

/-- F with an infinite second number of degrees of freedom -/
theorem C10_pf_inf_rounded {df1 : ℝ} (h1 : Lib.eps ≤ df1) (hw : ∃ c, 0 < c ∧ fin df1 / fin 2 = fin c) :
    MonoCdf fun x => pf x (fin df1) pinf := by
  have he := Lib.eps_pos
  have d0 := he.trans_le h1
  have hE : EndsOK fun x => pf x (fin df1) pinf := by
    refine ⟨?_, ?_, ?_, ?_⟩ <;> simp [pf, f_ok', f_ok, eps, not_lt.2 h1]
  refine mono_of_fin MonoLib.log_mono hE (fun x => C07_pf_partial x _ _ (Or.inl (by simp))) (fun x => C09_pf_plain x _ _) ?_
  intro x y h
  have hpn : PN (pf (fin y) (fin df1) pinf false) := C09_pf_plain _ _ _
  have key : ∀ x : ℝ, Lib.eps ≤ x → pf (fin x) (fin df1) pinf false = pchisq (fin x * fin df1) (fin df1) false := by
    intro x hx
    simp [pf, f_ok', f_ok, eps, not_lt.2 h1, not_lt.2 hx, pf_limit_vals_dof]
  have mono : ∀ x y : ℝ, Lib.eps ≤ x → x ≤ y → pf (fin x) (fin df1) pinf false ≤ pf (fin y) (fin df1) pinf false := by
    intro x y hx hxy
    rw [key x hx, key y (hx.trans hxy)]
    refine C10_pchisq d0.le (fun _ => hw) _ _ ?_ false
    rw [fin_mul_fin, fin_mul_fin, ofE_le_ofE]
    exact Lib.rnd_mono (by nlinarith)
  have hlt : ∀ z : ℝ, z < Lib.eps → pf (fin z) (fin df1) pinf false = fin 0 := by
    intro z hz; simp [pf, f_ok', f_ok, eps, not_lt.2 h1, hz]
  rcases lt_or_ge x Lib.eps with hx | hx
  · rw [hlt x hx]
    rcases lt_or_ge y Lib.eps with hy | hy
    · rw [hlt y hy]; simp
    · exact hpn.nonneg (ne_nan_of_le_left (mono y y hy le_rfl))
  · exact mono x y hx h

end

/-- The distribution function of the beta distribution with both parameters 1. -/
theorem betaI_unit {z : ℝ} : betaI 1 1 z = z := by
  have h1 : beta 1 1 = 1 := by
    rw [← betaInt_eq one_pos one_pos]; simp
  rw [betaI, h1]; simp

namespace C10Double
open Double
set_option warn.classDefReducibility false in
attribute [local instance] doubleLib doubleLib_mono

example : MonoCdf fun x => pt x (fin 1) := C10_pt_one_rounded
example : MonoCdf fun x => pt x pinf := C10_pt_inf_rounded
example : MonoCdf fun x => pf x (fin 2) pinf :=
  C10_pf_inf_rounded (by rw [DoubleArith.deps]; norm_num) ⟨1, one_pos, by
    rw [DoubleArith.ddiv _ two_ne_zero, div_self two_ne_zero, show R 1 = ((1 : ℝ) : EReal) from rnd_one, ofE_coe]⟩

theorem ok2 : ¬ (2 : ℝ) < Lib.eps := by rw [DoubleArith.deps]; norm_num

theorem pt2 (x : ℝ) : pt (fin x) (fin 2) false = half + fin x / (2 * sqrt (fin x * fin x + 2)) := by
  simp only [pt]
  rw [if_neg (by simp [t_ok', t_ok, eps, ok2]), if_neg (by simp), if_neg (by simp), if_neg (by simp), pt_compute, if_neg (by simp [one_eq]),
    if_pos (by simp [ofNat_eq])]
  rfl

/-- 2 degrees of freedom: from the point on where the square overflows the value is that at the median. -/
theorem C10_pt_two_double_overflow {x : ℝ} (hx : 2 ^ 512 ≤ |x|) : pt (fin x) (fin 2) false = fin (1 / 2) := by
  have h : (2 : ℝ) ^ 1024 ≤ x * x := by
    rw [← abs_mul_abs_self x]
    calc (2 : ℝ) ^ 1024 = 2 ^ 512 * 2 ^ 512 := by rw [← pow_add]
      _ ≤ _ := mul_le_mul hx hx (by positivity) (abs_nonneg x)
  rw [pt2, DoubleArith.dmul, R_big h, ofE_top, ofNat_eq 2, pinf_add_fin]
  show half + fin x / (fin 2 * pinf) = _
  rw [fin_mul_pinf, if_neg (by norm_num), if_pos (by norm_num), fin_div_pinf, half_eq, DoubleArith.dadd, add_zero,
    show R (1 / 2) = ((1 / 2 : ℝ) : EReal) from rep_oh, ofE_coe]

theorem pt2_one : ∃ y : ℝ, pt (fin 1) (fin 2) false = fin y ∧ 3 / 4 ≤ y := by
  have int : ∀ n : ℤ, |n| ≤ 2 ^ 19 → R n = ((n : ℝ) : EReal) := doubleRounding.int
  have r1 : R 1 = ((1 : ℝ) : EReal) := by simpa using int 1 (by norm_num)
  have r2 : R 2 = ((2 : ℝ) : EReal) := by have := int 2 (by norm_num); push_cast at this; exact this
  have r3 : R 3 = ((3 : ℝ) : EReal) := by have := int 3 (by norm_num); push_cast at this; exact this
  have r4 : R 4 = ((4 : ℝ) : EReal) := by have := int 4 (by norm_num); push_cast at this; exact this
  have rq : R (1 / 4) = ((1 / 4 : ℝ) : EReal) := by have := R_pow 2 (by norm_num); norm_num at this ⊢; exact this
  have rh : R (1 / 2) = ((1 / 2 : ℝ) : EReal) := rep_oh
  have rt : R (3 / 4) = ((3 / 4 : ℝ) : EReal) := by
    have := R_near (x := 3 / 4) (-1) (3 * 2 ^ 51) (by norm_num) (by norm_num) (by norm_num) (by norm_num) (by norm_num [abs_lt])
    rw [this]; norm_num
  have e1 : fin 1 * fin 1 + (2 : Fl) = fin 3 := by
    rw [DoubleArith.dmul, one_mul, r1, ofE_coe, ofNat_eq 2, DoubleArith.dadd, show (1 + OfNat.ofNat 2 : ℝ) = 3 by norm_num, r3, ofE_coe]
  obtain ⟨s, es, s1, s2⟩ : Btw 1 2 (sqrt (fin 3)) := by
    show Btw 1 2 (if (3 : ℝ) < 0 then nan else ofE (R √3))
    rw [if_neg (by norm_num)]
    exact btw_rnd rep_one rep_two (Real.le_sqrt_of_sq_le (by norm_num)) (Real.sqrt_le_iff.2 ⟨by norm_num, by norm_num⟩)
  obtain ⟨d, ed, d1, d2⟩ : Btw 2 4 ((2 : Fl) * fin s) := by
    rw [ofNat_eq 2, DoubleArith.dmul, show (OfNat.ofNat 2 : ℝ) = 2 from rfl]
    exact btw_rnd r2 r4 (by linarith) (by linarith)
  obtain ⟨w, ew, w1, w2⟩ : Btw (1 / 4) (1 / 2) (fin 1 / fin d) := by
    rw [DoubleArith.ddiv _ (by linarith)]
    exact btw_rnd rq rh (one_div_le_one_div_of_le (by linarith) d2) (one_div_le_one_div_of_le (by norm_num) d1)
  obtain ⟨y, ey, y1, -⟩ : Btw (3 / 4) 1 (half + fin w) := by
    rw [half_eq, DoubleArith.dadd]
    exact btw_rnd rt r1 (by linarith) (by linarith)
  exact ⟨y, by rw [pt2, e1, es, ed, ew, ey], y1⟩

/-- 2 degrees of freedom: at least 3/4 at 1, and 1/2 at `2^600`. -/
theorem C10_pt_two_double_violated : ¬ MonoCdf fun x => pt x (fin 2) := by
  intro h
  obtain ⟨y, e, hy⟩ := pt2_one
  have h2 : (1 : ℝ) ≤ 2 ^ 600 := one_le_pow₀ (by norm_num)
  have := h (fin 1) (fin (2 ^ 600)) (by simpa using h2) false
  have o := C10_pt_two_double_overflow (x := 2 ^ 600) (by
    rw [abs_of_nonneg (by positivity)]; exact pow_le_pow_right₀ (by norm_num) (by norm_num))
  simp only [e, o, fin_le_fin] at this
  linarith

theorem pf22 {x : ℝ} (h : 1 ≤ x) : pf (fin x) (fin 2) (fin 2) false = ibeta (fin 1) (fin 1) (fin 2 * fin x / fin 2 / (1 + fin 2 * fin x / fin 2)) := by
  have e : fin 2 / (2 : Fl) = fin 1 := by
    rw [ofNat_eq 2, DoubleArith.ddiv _ (by norm_num), show (2 / OfNat.ofNat 2 : ℝ) = 1 by norm_num,
      show R 1 = ((1 : ℝ) : EReal) from rnd_one, ofE_coe]
  have hx : ¬ x < Lib.eps := by rw [DoubleArith.deps]; norm_num; linarith
  simp only [pf]
  rw [if_neg (by simp [f_ok', f_ok, eps, ok2]), if_neg (by simpa [eps] using hx), if_neg (by simp), if_neg (by simp), pf_compute, e]
  rfl

theorem unit_ibeta {z : ℝ} (h0 : 0 ≤ z) (h1 : z ≤ 1) : ibeta (fin 1) (fin 1) (fin z) = ofE (R z) := by
  show (if (1 : ℝ) < 0 ∨ (1 : ℝ) < 0 ∨ z < 0 ∨ 1 < z then nan else ofE (doubleLib.ibeta 1 1 z)) = _
  rw [if_neg (by simp [h0, h1])]
  show ofE (if ((0 : ℝ) < 1 ∧ (0 : ℝ) < 1) ∧ 0 ≤ z ∧ z ≤ 1 then R (betaI 1 1 z) else _) = _
  rw [if_pos ⟨⟨one_pos, one_pos⟩, h0, h1⟩, betaI_unit]

theorem value_u : pf (fin (9007199254740990 / 2 ^ 49)) (fin 2) (fin 2) false = fin (8477364004462110 / 2 ^ 53) := by
  have ha : fin 2 * fin (9007199254740990 / 2 ^ 49) / fin 2 = fin (9007199254740990 / 2 ^ 49) := by
    have h1 := R_near (x := 2 * (9007199254740990 / 2 ^ 49)) 4 9007199254740990 (by norm_num) (by norm_num) (by norm_num) (by norm_num) (by norm_num [abs_lt])
    have h2 := R_near (x := 9007199254740990 / 2 ^ 49) 3 9007199254740990 (by norm_num) (by norm_num) (by norm_num) (by norm_num) (by norm_num [abs_lt])
    rw [DoubleArith.dmul, h1, ofE_coe, DoubleArith.ddiv _ (by norm_num)]
    rw [show (((9007199254740990 : ℤ) : ℝ) * 2 ^ ((4 : ℤ) - 52) / 2 : ℝ) = 9007199254740990 / 2 ^ 49 by norm_num, h2, ofE_coe]; norm_num
  have hb : (1 : Fl) + fin (9007199254740990 / 2 ^ 49) = fin (4785074604081151 / 2 ^ 48) := by
    have := R_near (x := 1 + 9007199254740990 / 2 ^ 49) 4 4785074604081151 (by norm_num) (by norm_num) (by norm_num) (by norm_num)
      (by norm_num [abs_lt])
    rw [one_eq, DoubleArith.dadd, this, ofE_coe]; norm_num
  have hc : fin (9007199254740990 / 2 ^ 49) / fin (4785074604081151 / 2 ^ 48) = fin (8477364004462110 / 2 ^ 53) := by
    have := R_near (x := 9007199254740990 / 2 ^ 49 / (4785074604081151 / 2 ^ 48)) (-1) 8477364004462110 (by norm_num) (by norm_num) (by norm_num) (by norm_num)
      (by norm_num [abs_lt])
    rw [DoubleArith.ddiv _ (by norm_num), this, ofE_coe]; norm_num
  have hd := R_near (x := 8477364004462110 / 2 ^ 53) (-1) 8477364004462110 (by norm_num) (by norm_num) (by norm_num) (by norm_num) (by norm_num [abs_lt])
  rw [pf22 (by norm_num) , ha, hb, hc, unit_ibeta (by norm_num) (by norm_num), hd, ofE_coe]; norm_num

theorem value_v : pf (fin (9007199254740991 / 2 ^ 49)) (fin 2) (fin 2) false = fin (8477364004462109 / 2 ^ 53) := by
  have ha : fin 2 * fin (9007199254740991 / 2 ^ 49) / fin 2 = fin (9007199254740991 / 2 ^ 49) := by
    have h1 := R_near (x := 2 * (9007199254740991 / 2 ^ 49)) 4 9007199254740991 (by norm_num) (by norm_num) (by norm_num) (by norm_num) (by norm_num [abs_lt])
    have h2 := R_near (x := 9007199254740991 / 2 ^ 49) 3 9007199254740991 (by norm_num) (by norm_num) (by norm_num) (by norm_num) (by norm_num [abs_lt])
    rw [DoubleArith.dmul, h1, ofE_coe, DoubleArith.ddiv _ (by norm_num)]
    rw [show (((9007199254740991 : ℤ) : ℝ) * 2 ^ ((4 : ℤ) - 52) / 2 : ℝ) = 9007199254740991 / 2 ^ 49 by norm_num, h2, ofE_coe]; norm_num
  have hb : (1 : Fl) + fin (9007199254740991 / 2 ^ 49) = fin (4785074604081152 / 2 ^ 48) := by
    have := R_tie (x := 1 + 9007199254740991 / 2 ^ 49) 4 4785074604081152 (by norm_num) (by norm_num) (by norm_num) (by norm_num)
      ⟨2392537302040576, by norm_num⟩ (by norm_num)
    rw [one_eq, DoubleArith.dadd, this, ofE_coe]; norm_num
  have hc : fin (9007199254740991 / 2 ^ 49) / fin (4785074604081152 / 2 ^ 48) = fin (8477364004462109 / 2 ^ 53) := by
    have := R_near (x := 9007199254740991 / 2 ^ 49 / (4785074604081152 / 2 ^ 48)) (-1) 8477364004462109 (by norm_num) (by norm_num) (by norm_num) (by norm_num)
      (by norm_num [abs_lt])
    rw [DoubleArith.ddiv _ (by norm_num), this, ofE_coe]; norm_num
  have hd := R_near (x := 8477364004462109 / 2 ^ 53) (-1) 8477364004462109 (by norm_num) (by norm_num) (by norm_num) (by norm_num) (by norm_num [abs_lt])
  rw [pf22 (by norm_num) , ha, hb, hc, unit_ibeta (by norm_num) (by norm_num), hd, ofE_coe]; norm_num

/-- 2 and 2 degrees of freedom: falling between the last two doubles below 16. -/
theorem C10_pf_double_violated : ¬ MonoCdf fun x => pf x (fin 2) (fin 2) := by
  intro h
  have := h (fin (9007199254740990 / 2 ^ 49)) (fin (9007199254740991 / 2 ^ 49)) (by rw [fin_le_fin]; norm_num) false
  simp only [value_u, value_v, fin_le_fin] at this
  norm_num at this

end C10Double
end Stats

import Verif.Lemmas.RoundInst
import Verif.Props.C16E

/-!
# C09 for `pt` in binary64

`C09_pt_partial` leaves out two degrees of freedom, where the code evaluates `0.5 + x / (2*sqrt(x*x + 2))`. For a double `x` the rounded
square root of the rounded `x*x` is `|x|`, so the quotient stays within `[-1/2, 1/2]`.
-/

set_option linter.unusedSectionVars false
open Classical
namespace Stats
open Fl Spec

namespace Double

/-- The square root of the square of a double, both rounded to nearest, is the double. -/
theorem sqrt_sq {a t : ℝ} (h1 : 1 ≤ a) (ha : R a = (a : EReal)) (ht : R (a * a) = (t : EReal)) : R √t = (a : EReal) := by
  have a0 : 0 < a := by linarith
  obtain ⟨ma, -⟩ := R_coe a0.le ha
  obtain ⟨mt, -⟩ := R_coe (mul_pos a0 a0).le ht
  obtain ⟨n, -, -, hn, -⟩ := mag_form a0
  have el : (2 : ℝ) ^ Int.log 2 a ≤ a := by exact_mod_cast Int.zpow_log_le_self (b := 2) (by norm_num) a0
  have eu : a < (2 : ℝ) ^ (Int.log 2 a + 1) := by exact_mod_cast Int.lt_zpow_succ_log_self (b := 2) (by norm_num) a
  generalize Int.log 2 a = e at el eu
  have e0 : 0 ≤ e := by
    by_contra hc
    have : (2 : ℝ) ^ (e + 1) ≤ 2 ^ (0 : ℤ) := zpow_le_zpow_right₀ (by norm_num) (by omega)
    rw [zpow_zero] at this; linarith
  have e1 : e ≤ 511 := by
    by_contra hc
    have h2 : (2 : ℝ) ^ (512 : ℤ) ≤ a := (zpow_le_zpow_right₀ (by norm_num) (by omega)).trans el
    have h3 : (2 : ℝ) ^ 1024 ≤ a * a := by
      calc (2 : ℝ) ^ 1024 = 2 ^ (512 : ℤ) * 2 ^ (512 : ℤ) := by rw [← zpow_add₀ (by norm_num), ← zpow_natCast]; norm_num
        _ ≤ a * a := mul_le_mul h2 h2 (zpow_pos' _).le a0.le
    rw [R_big h3] at ht
    exact absurd ht.symm (EReal.coe_ne_top _)
  have hq : q a = e - 52 := q_eq el eu (by omega)
  rw [hq, ma] at hn
  have w0 := zpow_pos' (e - 52)
  have we : (2 : ℝ) ^ e = 2 ^ 52 * 2 ^ (e - 52) := by
    rw [← zpow_natCast, ← zpow_add₀ (by norm_num)]; congr 1; push_cast; ring
  have aa : a * a < (2 : ℝ) ^ (2 * e + 1 + 1) := by
    rw [show 2 * e + 1 + 1 = (e + 1) + (e + 1) by ring, zpow_add₀ (by norm_num)]
    exact mul_lt_mul eu eu.le a0 (zpow_pos' _).le
  rcases el.eq_or_lt with he | he
  · have h2 : a * a = (2 : ℝ) ^ (2 * e) := by rw [two_mul, zpow_add₀ (by norm_num), he]
    have h3 := mag_of_mul (mul_pos a0 a0) (k := 1) (j := 2 * e) (by rw [h2, Int.cast_one, one_mul])
      ((q_le (mul_pos a0 a0) aa (by omega)).trans (by omega))
    rw [← mt, h3, Real.sqrt_mul_self a0.le, ha]
  · have n1 : (2 : ℤ) ^ 52 + 1 ≤ n := by
      rw [we, hn] at he
      have := lt_of_mul_lt_mul_right he w0.le
      have : (2 : ℤ) ^ 52 < n := by exact_mod_cast this
      omega
    have n2 : (2 : ℝ) ^ 52 + 1 ≤ n := by exact_mod_cast n1
    have qa := q_le (mul_pos a0 a0) aa (by omega)
    have terr : |t - a * a| ≤ 2 ^ 52 * (2 ^ (e - 52) * 2 ^ (e - 52)) := by
      have p := zpow_pos' (q (a * a))
      have h2 := Wide.rne_err (a * a / 2 ^ q (a * a))
      have h3 : mag (a * a) - a * a = (rne (a * a / 2 ^ q (a * a)) - a * a / 2 ^ q (a * a)) * 2 ^ q (a * a) := by
        rw [mag, if_neg (mul_pos a0 a0).not_ge]; field_simp
      have h4 : (2 : ℝ) ^ q (a * a) ≤ 2 * (2 ^ 52 * (2 ^ (e - 52) * 2 ^ (e - 52))) := by
        calc (2 : ℝ) ^ q (a * a) ≤ 2 ^ (2 * e + 1 - 52) := zpow_le_zpow_right₀ (by norm_num) qa
          _ = _ := by
            rw [← zpow_add₀ (by norm_num), ← zpow_natCast, ← zpow_add₀ (by norm_num), ← zpow_one_add₀ (by norm_num)]
            congr 1; push_cast; ring
      rw [mt] at h3
      rw [h3, abs_mul, abs_of_pos p]
      have := mul_le_mul_of_nonneg_right h2 p.le
      linarith
    obtain ⟨tl, tu⟩ := abs_le.1 terr
    have low : (n - 1 / 2) * (2 : ℝ) ^ (e - 52) < √t := by
      refine Real.lt_sqrt_of_sq_lt (lt_of_lt_of_le ?_ (by linarith : a * a - 2 ^ 52 * (2 ^ (e - 52) * 2 ^ (e - 52)) ≤ t))
      rw [hn]
      have w2 := mul_pos w0 w0
      generalize (2 : ℝ) ^ (e - 52) = w at w2
      have : (0 : ℝ) < (n - 1 / 4 - 2 ^ 52) * (w * w) := mul_pos (by linarith) w2
      linarith
    have high : √t < (n + 1 / 2) * (2 : ℝ) ^ (e - 52) := by
      refine (Real.sqrt_lt' (mul_pos (by linarith) w0)).2 (lt_of_le_of_lt (by linarith : t ≤ a * a + 2 ^ 52 * (2 ^ (e - 52) * 2 ^ (e - 52))) ?_)
      rw [hn]
      have w2 := mul_pos w0 w0
      generalize (2 : ℝ) ^ (e - 52) = w at w2
      have : (0 : ℝ) < (n + 1 / 4 - 2 ^ 52) * (w * w) := mul_pos (by linarith) w2
      linarith
    have n3 : (n : ℝ) + 1 ≤ 2 ^ 53 := by
      have we1 : (2 : ℝ) ^ (e + 1) = 2 ^ 53 * 2 ^ (e - 52) := by
        rw [← zpow_natCast, ← zpow_add₀ (by norm_num)]; congr 1; push_cast; ring
      rw [we1, hn] at eu
      have := lt_of_mul_lt_mul_right eu w0.le
      have : n < 2 ^ 53 := by exact_mod_cast this
      have : n + 1 ≤ 2 ^ 53 := by omega
      exact_mod_cast this
    rw [R_near (x := √t) e n ?_ ?_ (by omega) (by omega) ?_, ← hn]
    · refine le_trans ?_ low.le
      rw [we]
      exact mul_le_mul_of_nonneg_right (by linarith) w0.le
    · refine high.trans ?_
      rw [show (2 : ℝ) ^ (e + 1) = 2 ^ 53 * 2 ^ (e - 52) by
        rw [← zpow_natCast, ← zpow_add₀ (by norm_num)]; congr 1; push_cast; ring]
      exact mul_lt_mul_of_pos_right (by linarith) w0
    · rw [abs_lt, lt_sub_iff_add_lt, sub_lt_iff_lt_add, lt_div_iff₀ w0, div_lt_iff₀ w0]
      constructor
      · linarith
      · linarith

end Double

namespace C09Pt
open Double
set_option warn.classDefReducibility false in
attribute [local instance] doubleLib doubleLib_mono

theorem two_mul_rep {a : ℝ} (h1 : 1 ≤ a) (h2 : a < 2 ^ 600) (ha : R a = (a : EReal)) : R (2 * a) = ((2 * a : ℝ) : EReal) := by
  have a0 : 0 < a := by linarith
  obtain ⟨ma, -⟩ := R_coe a0.le ha
  obtain ⟨n, -, -, hn, -⟩ := mag_form a0
  rw [ma] at hn
  have el : (2 : ℝ) ^ Int.log 2 a ≤ a := by exact_mod_cast Int.zpow_log_le_self (b := 2) (by norm_num) a0
  have eu : a < (2 : ℝ) ^ (Int.log 2 a + 1) := by exact_mod_cast Int.lt_zpow_succ_log_self (b := 2) (by norm_num) a
  generalize Int.log 2 a = e at el eu
  have e0 : 0 ≤ e := by
    by_contra hc
    have : (2 : ℝ) ^ (e + 1) ≤ 2 ^ (0 : ℤ) := zpow_le_zpow_right₀ (by norm_num) (by omega)
    rw [zpow_zero] at this; linarith
  have hq : q a = e - 52 := q_eq el eu (by omega)
  rw [hq] at hn
  refine R_of_mul (by linarith) (k := n) (j := e - 51) ?_ ?_ ?_
  · rw [show e - 51 = 1 + (e - 52) by ring, zpow_one_add₀ (by norm_num)]
    linarith
  · have := q_le (x := 2 * a) (by linarith) (e := e + 1) (by rw [zpow_add_one₀ (by norm_num)]; linarith) (by omega)
    omega
  · calc 2 * a < 2 * 2 ^ 600 := by linarith
      _ = 2 ^ 601 := (pow_succ' 2 600).symm
      _ ≤ 2 ^ 1024 := pow_le_pow_right₀ (by norm_num) (by norm_num)

/-- the quotient in `pt` with two degrees of freedom -/
theorem quot {x : ℝ} (hx : R x = (x : EReal)) : Btw (-(1 / 2)) (1 / 2) (fin x / (2 * sqrt (fin x * fin x + 2))) := by
  have inf : Btw (-(1 / 2)) (1 / 2) (fin x / (2 * sqrt pinf)) := by
    refine ⟨0, ?_, by norm_num, by norm_num⟩
    show fin x / (2 * pinf) = fin 0
    rw [ofNat_eq 2, fin_mul_pinf, if_neg (by norm_num), if_pos (by norm_num), fin_div_pinf]
  have ax : R |x| = ((|x| : ℝ) : EReal) := by
    rcases abs_choice x with h | h <;> rw [h]
    · exact hx
    · rw [R_neg, hx, EReal.coe_neg]
  have sq : x * x = |x| * |x| := (abs_mul_abs_self x).symm
  have up : ∀ z : ℝ, 0 ≤ z → R z = ⊤ ∨ ∃ t : ℝ, R z = (t : EReal) ∧ 0 ≤ t := by
    intro z hz
    have := R_mono hz
    rw [show R 0 = ((0 : ℝ) : EReal) from doubleRounding.zero] at this
    induction hR : R z using EReal.rec with
    | bot => rw [hR] at this; exact absurd this (by simp)
    | top => exact Or.inl rfl
    | coe t => rw [hR] at this; exact Or.inr ⟨t, rfl, by exact_mod_cast this⟩
  rcases up (x * x) (mul_self_nonneg x) with h | ⟨t, ht, t0⟩
  · rw [DoubleArith.dmul, h, ofE_top, ofNat_eq 2, pinf_add_fin, ← ofNat_eq 2]; exact inf
  rw [DoubleArith.dmul, ht, ofE_coe]
  rcases up (t + 2) (by linarith) with h | ⟨u, hu, u0⟩
  · rw [ofNat_eq 2, DoubleArith.dadd, show (OfNat.ofNat 2 : ℝ) = 2 from rfl, h, ofE_top, ← ofNat_eq 2]; exact inf
  have ru : R 2 = ((2 : ℝ) : EReal) := rep_two
  have e1 : fin t + (2 : Fl) = fin u := by
    rw [ofNat_eq 2, DoubleArith.dadd, show (OfNat.ofNat 2 : ℝ) = 2 from rfl, hu, ofE_coe]
  have u2 : 2 ≤ u := by
    have := R_mono (show 2 ≤ t + 2 by linarith)
    rw [ru, hu] at this; exact_mod_cast this
  have ut : t ≤ u := by
    have := R_mono (show t ≤ t + 2 by linarith)
    rw [R_R (mul_self_nonneg x) ht, hu] at this; exact_mod_cast this
  have key : ∀ S : EReal, R √u = S → (1 : EReal) ≤ S ∧ ((|x| : ℝ) : EReal) ≤ S := by
    rintro S rfl
    have one : (1 : EReal) ≤ R √u := by
      have h2 : (1 : ℝ) ≤ √u := Real.le_sqrt_of_sq_le (by linarith)
      have := R_mono h2
      rwa [show R 1 = ((1 : ℝ) : EReal) from rep_one] at this
    refine ⟨one, ?_⟩
    rcases le_or_gt 1 |x| with h | h
    · exact (sqrt_sq h ax (sq ▸ ht)).ge.trans (R_mono (Real.sqrt_le_sqrt ut))
    · exact le_trans (by exact_mod_cast h.le) one
  have es : sqrt (fin u) = ofE (R √u) := by
    show (if u < 0 then nan else ofE (R √u)) = _
    rw [if_neg (by linarith)]
  rw [e1, es]
  rcases up √u (Real.sqrt_nonneg u) with h | ⟨s, hs, s0⟩
  · rw [h, ofE_top]; exact inf
  obtain ⟨k1, k2⟩ := key _ hs
  have k1 : 1 ≤ s := by exact_mod_cast k1
  have k2 : |x| ≤ s := by exact_mod_cast k2
  rw [hs, ofE_coe]
  rcases up (2 * s) (by linarith) with h | ⟨d, hd, d0⟩
  · rw [ofNat_eq 2, DoubleArith.dmul, show (OfNat.ofNat 2 : ℝ) = 2 from rfl, h, ofE_top, fin_div_pinf]
    exact ⟨0, rfl, by norm_num, by norm_num⟩
  have e2 : (2 : Fl) * fin s = fin d := by
    rw [ofNat_eq 2, DoubleArith.dmul, show (OfNat.ofNat 2 : ℝ) = 2 from rfl, hd, ofE_coe]
  have d2 : 2 ≤ d := by
    have := R_mono (show 2 ≤ 2 * s by linarith)
    rw [ru, hd] at this; exact_mod_cast this
  have dx : 2 * |x| ≤ d := by
    rcases le_or_gt 1 |x| with h | h
    · have hb : |x| < 2 ^ 600 := by
        by_contra hc
        have hc := not_lt.1 hc
        have : (2 : ℝ) ^ 1024 ≤ x * x := by
          rw [sq]
          calc (2 : ℝ) ^ 1024 ≤ 2 ^ 1200 := pow_le_pow_right₀ (by norm_num) (by norm_num)
            _ = 2 ^ 600 * 2 ^ 600 := by rw [← pow_add]
            _ ≤ _ := mul_le_mul hc hc (by positivity) (abs_nonneg x)
        rw [R_big this] at ht
        exact absurd ht.symm (EReal.coe_ne_top _)
      have := R_mono (show 2 * |x| ≤ 2 * s by linarith)
      rw [two_mul_rep h hb ax, hd] at this
      exact_mod_cast this
    · linarith
  rw [e2, DoubleArith.ddiv _ (by linarith)]
  have ab := abs_le.1 (show |x / d| ≤ 1 / 2 by
    rw [abs_div, abs_of_nonneg d0, div_le_iff₀ (by linarith)]; linarith)
  exact btw_rnd (rep_neg rep_oh) rep_oh ab.1 ab.2

/-- Binary64, every double and every number of degrees of freedom. -/
theorem C09_pt_double {x : ℝ} (hx : R x = (x : EReal)) (dof : Fl) : InUnit (pt (fin x) dof) := by
  by_cases h : dof = fin 2
  · subst h
    have ok : t_ok' (fin x) (fin 2) := by simp [t_ok', t_ok, eps, DoubleArith.deps]; norm_num
    refine inUnit_of_log (y := half + fin x / (2 * sqrt (fin x * fin x + 2))) ?_ fun b => ?_
    · right
      have := (btw_fin (a := 1 / 2) (b := 1 / 2) le_rfl le_rfl).add (quot hx) (by norm_num) (by norm_num)
      rw [half_eq]
      exact this.mono (by norm_num) (by norm_num)
    · simp only [pt, if_neg (not_not.2 ok)]
      rw [if_neg (by simp), if_neg (by simp), if_neg (by simp), pt_compute, if_neg (by simp [one_eq]), if_pos (by simp [ofNat_eq])]
  · exact C09_pt_partial (fin x) dof h

/-- infinite and undefined arguments -/
theorem C09_pt_double_inf (x dof : Fl) (hx : x = nan ∨ x = ninf ∨ x = pinf) : InUnit (pt x dof) := by
  by_cases h : dof = fin 2
  · subst h
    have ok : t_ok (fin 2) := by simp [t_ok, eps, DoubleArith.deps]; norm_num
    rcases hx with rfl | rfl | rfl
    · exact inUnit_nan fun b => by simp [pt, t_ok']
    · exact inUnit_zero fun b => by simp [pt, t_ok', ok]
    · exact inUnit_one fun b => by simp [pt, t_ok', ok]
  · exact C09_pt_partial x dof h

example : InUnit (pt (fin 3) (fin 2)) := 
  C09_pt_double (by have := doubleRounding.int 3 (by norm_num); push_cast at this; exact this) _

end C09Pt
end Stats

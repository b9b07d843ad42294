import Verif.Props.C33B
import Verif.Lemmas.NextInst
import Verif.Lemmas.RandIdeal

/-!
# C28 in binary64: generators built on gamma draws with a small shape

`rgamma` with a shape `a` of at most one multiplies a gamma draw by `pow(u, 1/a)`. For `a = 2^-11` the power underflows to 0 as soon as the
uniform variate is at most 5/8. `rbeta` and `rf` then divide 0 by 0, `rt` and `rinvgamma` divide by 0.
-/

set_option linter.unusedSectionVars false
set_option exponentiation.threshold 3000
open Classical
namespace Stats
open Fl Spec

namespace Double

/-- underflow -/
theorem R_tiny {x : ℝ} (h0 : 0 ≤ x) (h : x < 2 ^ (-1075 : ℤ)) : R x = ((0 : ℝ) : EReal) := by
  rw [R, if_pos h0]
  have : mag x = 0 := by
    rw [mag]
    split_ifs with hx
    · rfl
    have hx : 0 < x := not_le.1 hx
    have hq : q x = -1074 := by
      rw [q, max_eq_right]
      have : Int.log 2 x < -1074 := by
        by_contra hc
        have e1 : (2 : ℝ) ^ Int.log 2 x ≤ x := by exact_mod_cast Int.zpow_log_le_self (b := 2) (by norm_num) hx
        have e2 : (2 : ℝ) ^ (-1075 : ℤ) ≤ 2 ^ Int.log 2 x := zpow_le_zpow_right₀ (by norm_num) (by omega)
        linarith
      omega
    have h2 : rne (x / 2 ^ q x) = 0 := by
      refine rne_near ?_
      rw [hq, Int.cast_zero, sub_zero, abs_of_nonneg (by positivity), div_lt_iff₀ (by positivity)]
      rw [show (-1075 : ℤ) = -1 + -1074 by norm_num, zpow_add₀ (by norm_num)] at h
      norm_num at h ⊢
      exact h
    rw [h2]; simp
  rw [this, over_zero]; rfl

end Double

namespace C28Double
open Double DoubleArith
set_option warn.classDefReducibility false in
attribute [local instance] doubleLib

/-- zero or NaN -/
def ZN (x : Fl) : Prop := x = fin 0 ∨ x = nan

theorem r0 : ofE (R 0) = fin 0 := by rw [show R 0 = ((0 : ℝ) : EReal) from doubleRounding.zero, ofE_coe]

theorem ZN.mul {x y : Fl} (h : ZN y) : ZN (x * y) := by
  rcases h with rfl | rfl
  · cases x with
    | fin r => left; rw [dmul, mul_zero, r0]
    | nan => right; rfl
    | pinf => right; rw [pinf_mul_fin, if_pos rfl]
    | ninf => right; rw [ninf_mul_fin, if_pos rfl]
  · right; cases x <;> rfl

theorem pow_under {u : ℝ} (hu : u ≤ 5 / 8) : ZN (pow (fin u) (1 / fin (1 / 2 ^ 11))) := by
  have e : (1 : Fl) / fin (1 / 2 ^ 11) = fin 2048 := by
    rw [one_eq, ddiv _ (by positivity), one_div_one_div, PoisDouble.R_two_pow 11 (by norm_num), ofE_coe]; norm_num
  rw [e, pow]
  split_ifs with h1 h2 h3 h4
  · right; rfl
  · norm_num at h3
  · left; rfl
  · norm_num at h4
  · left
    have u0 : 0 ≤ u := not_lt.1 h1
    show ofE (R (u ^ (2048 : ℝ))) = fin 0
    rw [R_tiny (by positivity), ofE_coe]
    have : u ^ (2048 : ℝ) = u ^ 2048 := by exact_mod_cast Real.rpow_natCast u 2048
    rw [this]
    refine (pow_le_pow_left₀ u0 hu 2048).trans_lt ?_
    rw [show ((5 : ℝ) / 8) ^ 2048 = (((5 : ℝ) / 8) ^ 2) ^ 1024 by rw [← pow_mul]]
    have : ((5 : ℝ) / 8) ^ 2 ≤ 2 / 5 := by norm_num
    refine (pow_le_pow_left₀ (by positivity) this 1024).trans_lt ?_
    rw [zpow_neg, lt_inv_comm₀ (by positivity) (by positivity), ← inv_pow]
    norm_num

variable {S : Type*} [Engine S]

/-- A gamma draw with shape `2^-11` whose uniform variate is at most 5/8 is 0 (or NaN). -/
theorem rgamma_under {scale : Fl} {s : S} {v : Fl × S} (h : rgamma (fin (1 / 2 ^ 11)) scale s = some v) {u : ℝ}
    (hu : (runif 0 1 s).1 = fin u) (hu1 : u ≤ 5 / 8) : ZN v.1 := by
  obtain ⟨n, hn⟩ := runFuel_eq_some h
  cases n with
  | zero => simp [rgamma_rec] at hn
  | succ n =>
    rw [rgamma_rec] at hn
    split_ifs at hn with h1 h2
    · exfalso
      rw [one_eq] at h2
      have : (1 : ℝ) < 1 / 2 ^ 11 := by simpa using h2
      norm_num at this
    · simp only [Option.map_eq_some_iff] at hn
      obtain ⟨g, -, rfl⟩ := hn
      rw [hu]
      exact (pow_under hu1).mul
    · right; rw [← Option.some.inj hn]

/-- `rbeta(2^-11, 2^-11)`: if both uniform variates are at most 5/8 and the draw ends, it is NaN. -/
theorem C28_rbeta_double_violated {s : S} {x v : Fl × S} (hx : rgamma (fin (1 / 2 ^ 11)) 1 s = some x)
    (hv : rbeta (fin (1 / 2 ^ 11)) (fin (1 / 2 ^ 11)) s = some v) {u w : ℝ}
    (hu : (runif 0 1 s).1 = fin u) (hu1 : u ≤ 5 / 8) (hw : (runif 0 1 x.2).1 = fin w) (hw1 : w ≤ 5 / 8) : v.1 = nan := by
  rw [rbeta, if_neg (by simp [beta_ok])] at hv
  rw [hx, Option.bind_some, Option.map_eq_some_iff] at hv
  obtain ⟨y, hy, rfl⟩ := hv
  have z0 : fin 0 + fin 0 = fin 0 := by rw [dadd, add_zero, r0]
  have z1 : fin 0 / fin 0 = nan := by simp [fin_div_fin]
  have n1 (a : Fl) : (nan : Fl) / a = nan := by cases a <;> rfl
  rcases rgamma_under hx hu hu1 with e | e <;> rcases rgamma_under hy hw hw1 with f | f <;> simp only [e, f]
  · rw [z0, z1]
  · rfl
  · exact n1 _
  · exact n1 _

theorem half_dof : (fin (1 / 2 ^ 10) : Fl) / 2 = fin (1 / 2 ^ 11) := by
  rw [ofNat_eq 2, ddiv _ (by norm_num), show (1 / 2 ^ 10 / OfNat.ofNat 2 : ℝ) = 1 / 2 ^ 11 by norm_num]
  have := R_pow (e := 11) (by norm_num)
  rw [this, ofE_coe]

theorem rchisq_under {s : S} {v : Fl × S} (h : rchisq (fin (1 / 2 ^ 10)) s = some v) {u : ℝ}
    (hu : (runif 0 1 s).1 = fin u) (hu1 : u ≤ 5 / 8) : ZN v.1 := by
  rw [rchisq, if_neg (by simp [chisq_ok]), half_dof] at h
  exact rgamma_under h hu hu1

/-- `rf(2^-10, 2^-10)`, likewise -/
theorem C28_rf_double_violated {s : S} {x v : Fl × S} (hx : rchisq (fin (1 / 2 ^ 10)) s = some x)
    (hv : rf (fin (1 / 2 ^ 10)) (fin (1 / 2 ^ 10)) s = some v) {u w : ℝ}
    (hu : (runif 0 1 s).1 = fin u) (hu1 : u ≤ 5 / 8) (hw : (runif 0 1 x.2).1 = fin w) (hw1 : w ≤ 5 / 8) : v.1 = nan := by
  rw [rf, if_neg (by simp [f_ok, eps, deps]; norm_num)] at hv
  rw [hx, Option.bind_some, Option.map_eq_some_iff] at hv
  obtain ⟨y, hy, rfl⟩ := hv
  have n1 (a : Fl) : (nan : Fl) / a = nan := by cases a <;> rfl
  have n2 (a : Fl) : a / (nan : Fl) = nan := by cases a <;> rfl
  rcases (rchisq_under hx hu hu1).mul (x := fin (1 / 2 ^ 10) / fin (1 / 2 ^ 10)) with e | e <;>
    rcases rchisq_under hy hw hw1 with f | f <;> simp only [e, f, n1, n2]
  simp [fin_div_fin]

/-- `rt(2^-10)` is infinite or NaN if the uniform variate of its gamma draw is at most 5/8. -/
theorem C28_rt_double_violated {s : S} {v : Fl × S} (hv : rt (fin (1 / 2 ^ 10)) s = some v) {u : ℝ}
    (hu : (runif 0 1 (rnorm 0 1 s).2).1 = fin u) (hu1 : u ≤ 5 / 8) (r : ℝ) : v.1 ≠ fin r := by
  rw [rt, if_neg (by simp [t_ok, eps, deps]; norm_num)] at hv
  dsimp only at hv
  rw [Option.map_eq_some_iff] at hv
  obtain ⟨y, hy, rfl⟩ := hv
  have q0 : fin 0 / fin (1 / 2 ^ 10) = fin 0 := by rw [ddiv _ (by positivity), zero_div, r0]
  have s0 : sqrt (fin 0) = fin 0 := by
    show (if (0 : ℝ) < 0 then nan else ofE (R √0)) = _
    rw [if_neg (lt_irrefl _), Real.sqrt_zero, r0]
  rcases rchisq_under hy hu hu1 with e | e <;> simp only [e]
  · rw [q0, s0]
    cases (rnorm 0 1 s).1 with
    | fin a => rw [fin_div_fin, if_pos rfl]; split_ifs <;> simp
    | nan => simp [show (nan : Fl) / fin 0 = nan from rfl]
    | pinf => rw [pinf_div_fin]; split_ifs <;> simp
    | ninf => rw [ninf_div_fin]; split_ifs <;> simp
  · have : sqrt (nan / fin (1 / 2 ^ 10)) = nan := rfl
    rw [this]
    cases (rnorm 0 1 s).1 <;> simp [show ∀ a : Fl, a / nan = nan by intro a; cases a <;> rfl]

/-- `rinvgamma(2^-11, 1)` is infinite or NaN if the uniform variate of its gamma draw is at most 5/8. -/
theorem C28_rinvgamma_double_violated {s : S} {v : Fl × S} (hv : rinvgamma (fin (1 / 2 ^ 11)) 1 s = some v) {u : ℝ}
    (hu : (runif 0 1 s).1 = fin u) (hu1 : u ≤ 5 / 8) (r : ℝ) : v.1 ≠ fin r := by
  rw [rinvgamma, if_neg (by simp [invgamma_ok, one_eq])] at hv
  rw [Option.map_eq_some_iff] at hv
  obtain ⟨y, hy, rfl⟩ := hv
  rcases rgamma_under hy hu hu1 with e | e <;> simp only [e, one_eq]
  · rw [fin_div_fin, if_pos rfl]; split_ifs <;> simp
  · simp [show ∀ a : Fl, a / nan = nan by intro a; cases a <;> rfl]

/-! The fuel lemmas of `Lemmas/RandIdeal.lean`, for this arithmetic. -/

theorem gloop_mono (d c : Fl) (s : S) : FuelMono (fun k => rgamma_loop d c k s) := by
  intro k
  simp only
  induction k generalizing s with
  | zero => intro v hv; simp [rgamma_loop] at hv
  | succ k ih =>
    intro v hv
    rw [rgamma_loop] at hv ⊢
    simp only at hv ⊢
    split_ifs at hv ⊢ with h1 h2
    · exact hv
    · exact ih _ _ hv
    · exact ih _ _ hv

theorem grec_mono (shape scale : Fl) (s : S) : FuelMono (fun n => rgamma_rec n shape scale s) := by
  intro n
  simp only
  induction n generalizing shape s with
  | zero => intro v hv; simp [rgamma_rec] at hv
  | succ n ih =>
    intro v hv
    rw [rgamma_rec] at hv ⊢
    split_ifs at hv ⊢ with h1 h2
    · exact hv
    · dsimp only at hv ⊢
      rw [Option.map_eq_some_iff] at hv ⊢
      obtain ⟨g, hg, rfl⟩ := hv
      exact ⟨g, ih _ _ _ hg, rfl⟩
    · exact hv

/-! The hypotheses are met: an engine whose uniform variates are just above 1/4 and whose normal variates are 0. -/

noncomputable def quarter : Stream := ⟨fun _ => 1 / 4, fun _ => by norm_num, fun _ => 0⟩

theorem next_small : 0 < Lib.next 0 1 ∧ Lib.next 0 1 ≤ 1 / 8 := by
  have h : Lib.next 0 1 = min 1 (0 + gap 0) := rfl
  have g : gap 0 ≤ 1 / 8 := by
    rw [gap, if_pos rfl, show (1 / 8 : ℝ) = 2 ^ (-3 : ℤ) by norm_num]
    exact zpow_le_zpow_right₀ (by norm_num) (by norm_num)
  rw [h, zero_add, min_eq_right (by linarith)]
  exact ⟨gap_pos 0, g⟩

theorem quarter_unif : ∃ u : ℝ, runif 0 1 quarter = (fin u, quarter) ∧ 0 < u ∧ u ≤ 1 / 2 := by
  obtain ⟨h1, h2⟩ := next_small
  refine ⟨Lib.next 0 1 + (1 - Lib.next 0 1) * (1 / 4), ?_, by linarith, by linarith⟩
  rw [runif, if_neg (by simp [unif_ok, zero_eq, one_eq])]
  simp only [zero_eq, one_eq]
  rfl

theorem quarter_norm : rnorm 0 1 quarter = (fin 0, quarter) := by
  simp only [rnorm]
  rw [if_neg (by simp [norm_ok, zero_eq, one_eq])]
  have e1 : (0 : Fl) + 1 * fin (Engine.norm quarter).1 = fin 0 := by
    rw [zero_eq, one_eq, show (Engine.norm quarter).1 = 0 from rfl, dmul, mul_zero, r0, dadd, add_zero, r0]
  rw [e1]; rfl

theorem quarter_loop {d c : ℝ} (hc : 1 / 8 ≤ c) (hc1 : c ≤ 1) : rgamma_loop (fin d) (fin c) 1 quarter = some (fin 1, quarter) := by
  obtain ⟨u, hu, u0, u1⟩ := quarter_unif
  have r1 : R 1 = ((1 : ℝ) : EReal) := by simpa using PoisDouble.R_two_pow 0 (by norm_num)
  have f1 : ofE (R 1) = fin 1 := by rw [r1, ofE_coe]
  have c0 : 0 < c := by linarith
  have a1 : (fin 0 : Fl) > -1 / fin c := by
    obtain ⟨w, ew, w1, -⟩ := R_range (x := 1 / c) (j := 0) (k := 3) (by norm_num) (by norm_num)
      (by rw [pow_zero, le_div_iff₀ c0]; linarith) (by rw [div_le_iff₀ c0]; linarith)
    rw [one_eq, neg_fin, ddiv _ c0.ne', neg_div, R_neg, ew, ← EReal.coe_neg, ofE_coe]
    norm_num at w1
    simp; linarith
  have a2 : powi (1 + fin c * fin 0) 3 = fin 1 := by
    rw [dmul, mul_zero, r0, one_eq, dadd, add_zero, f1]
    show ofE (R (1 ^ 3)) = _
    rw [one_pow, f1]
  have a3 : half * fin 0 * fin 0 = fin 0 := by
    have h : half = fin (1 / 2) := rfl
    rw [h, dmul, mul_zero, r0, dmul, mul_zero, r0]
  have a4 : log (fin 1) = fin 0 := by
    rw [log_fin, if_neg (by norm_num), if_neg one_ne_zero, Lib.log_one]; rfl
  have a5 : (1 : Fl) - fin 1 + fin 0 = fin 0 := by rw [one_eq, dsub, sub_self, r0, dadd, add_zero, r0]
  have a6 : fin d * fin 0 = fin 0 := by rw [dmul, mul_zero, r0]
  have a7 : fin 0 + fin 0 = fin 0 := by rw [dadd, add_zero, r0]
  have a8 : log (fin u) < fin 0 := by
    rw [log_fin, if_neg (by linarith), if_neg u0.ne']
    show ofE (R (Real.log u)) < fin 0
    have hl : Real.log u ≤ -(1 / 2) := by
      have := Real.log_le_sub_one_of_pos u0
      linarith
    have hr := R_mono hl
    rw [R_neg, show (1 / 2 : ℝ) = 1 / 2 ^ 1 by norm_num, R_pow (e := 1) (by norm_num)] at hr
    generalize R (Real.log u) = z at hr
    induction z using EReal.rec with
    | bot => exact trivial
    | top => exact absurd hr (not_le.2 (by rw [← EReal.coe_neg]; exact EReal.coe_lt_top _))
    | coe r =>
      rw [← EReal.coe_neg, EReal.coe_le_coe_iff] at hr
      rw [ofE_coe, fin_lt_fin]; norm_num at hr; linarith
  simp only [rgamma_loop]
  rw [quarter_norm]
  simp only [if_pos a1, a2, a3, a4, a5, a6, a7, hu, if_pos a8]

theorem fin_range {x : ℝ} {i k : ℕ} (hi : i ≤ 1000) (hk : k ≤ 1000) (h1 : 1 / 2 ^ i ≤ x) (h2 : x ≤ 2 ^ k) :
    ∃ y : ℝ, ofE (R x) = fin y ∧ 1 / 2 ^ i ≤ y ∧ y ≤ 2 ^ k := by
  have a := R_mono h1
  have b := R_mono h2
  rw [R_pow (e := i) (by omega)] at a
  rw [PoisDouble.R_two_pow k hk] at b
  generalize R x = z at a b
  induction z using EReal.rec with
  | bot => exact absurd a (not_le.2 (EReal.bot_lt_coe _))
  | top => exact absurd b (not_le.2 (EReal.coe_lt_top _))
  | coe r => exact ⟨r, ofE_coe _, EReal.coe_le_coe_iff.1 a, EReal.coe_le_coe_iff.1 b⟩

theorem quarter_gamma : ∃ g : Fl, rgamma (fin (1 / 2 ^ 11)) 1 quarter = some (g, quarter) := by
  obtain ⟨u, hu, u0, u1⟩ := quarter_unif
  have e1 : (1 : Fl) + fin (1 / 2 ^ 11) = fin (1 + 1 / 2 ^ 11) := by
    rw [one_eq, dadd, R_near 0 (2 ^ 52 + 2 ^ 41) (by norm_num) (by norm_num) (by norm_num) (by norm_num) (by norm_num), ofE_coe]
    norm_num
  have e2 : ∃ t : ℝ, (1 : Fl) / 3 = fin t ∧ 1 / 4 ≤ t ∧ t ≤ 1 / 2 := by
    have h := R_near (x := 1 / 3) (-2) 6004799503160661 (by norm_num) (by norm_num) (by norm_num) (by norm_num) (by norm_num [abs_lt])
    refine ⟨_, by rw [one_eq, ofNat_eq 3, ddiv _ (by norm_num), show (1 / OfNat.ofNat 3 : ℝ) = 1 / 3 from rfl, h, ofE_coe], by norm_num, by norm_num⟩
  obtain ⟨t, et, t1, t2⟩ := e2
  obtain ⟨d, ed, d1, d2⟩ := fin_range (x := 1 + 1 / 2 ^ 11 - t) (i := 1) (k := 1) (by norm_num) (by norm_num) (by norm_num; linarith) (by norm_num; linarith)
  have ed : fin (1 + 1 / 2 ^ 11) - fin t = fin d := by rw [dsub, ed]
  norm_num at d1 d2
  obtain ⟨w, ew, w1, w2⟩ := fin_range (x := √d) (i := 1) (k := 1) (by norm_num) (by norm_num)
    (Real.le_sqrt_of_sq_le (by norm_num; linarith)) (Real.sqrt_le_iff.2 ⟨by norm_num, by norm_num; linarith⟩)
  have ew : sqrt (fin d) = fin w := by
    show (if d < 0 then nan else ofE (R √d)) = _
    rw [if_neg (by linarith), ew]
  norm_num at w1 w2
  have w0 : 0 < w := by linarith
  obtain ⟨c, ec, c1, c2⟩ := fin_range (x := t / w) (i := 3) (k := 0) (by norm_num) (by norm_num)
    (by rw [le_div_iff₀ w0]; linarith) (by rw [div_le_iff₀ w0]; linarith)
  have ec : fin t / fin w = fin c := by rw [ddiv _ w0.ne', ec]
  norm_num at c1 c2
  have hl := runFuel_eq (gloop_mono (fin d) (fin c) quarter) (quarter_loop (d := d) (by linarith) c2)
  have ok (a : ℝ) (ha : 0 ≤ a) : gamma_ok (fin a) 1 := by
    simp [gamma_ok, one_eq, eps, deps, ha]; norm_num
  have h1 : rgamma_rec 1 (fin (1 + 1 / 2 ^ 11)) 1 quarter = some (fin d * fin 1 * 1, quarter) := by
    rw [rgamma_rec, if_neg (not_not.2 (ok _ (by positivity))), if_pos (by rw [one_eq]; simp)]
    simp only [et, ed, ew, ec, hl]
    rfl
  refine ⟨fin d * fin 1 * 1 * pow (fin u) (1 / fin (1 / 2 ^ 11)), runFuel_eq (grec_mono _ _ _) (n := 2) ?_⟩
  rw [rgamma_rec, if_neg (not_not.2 (ok _ (by positivity))), if_neg (by rw [one_eq, gt_iff_lt, fin_lt_fin]; norm_num)]
  simp only [hu, e1, h1]
  rfl

/-- the engine `quarter` makes `rbeta(2^-11, 2^-11)` return NaN -/
example : rbeta (fin (1 / 2 ^ 11)) (fin (1 / 2 ^ 11)) quarter = some (nan, quarter) := by
  obtain ⟨g, hg⟩ := quarter_gamma
  obtain ⟨u, hu, u0, u1⟩ := quarter_unif
  have hv : rbeta (fin (1 / 2 ^ 11)) (fin (1 / 2 ^ 11)) quarter = some (g / (g + g), quarter) := by
    rw [rbeta, if_neg (by simp [beta_ok]), hg, Option.bind_some, hg]; rfl
  have h1 : (runif 0 1 quarter).1 = fin u := by rw [hu]
  have := C28_rbeta_double_violated hg hv h1 (by linarith) h1 (by linarith)
  rw [hv, show g / (g + g) = nan from this]

end C28Double
end Stats

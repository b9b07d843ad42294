import Verif.Props.C63B

/-!
# C63: the coefficients of Hill's expansion

The transformation of the normal quantile (before the exponential is replaced by a polynomial) is exact to the fourth
order in `1/dof`, and the coefficient `d` of the tail branch to the fifth.
-/

set_option linter.unusedSectionVars false
open Classical MeasureTheory Filter Topology Asymptotics
namespace Stats
open Fl Spec
variable [Lib] [Ideal]

/-! ### the constant of the density, one order further -/

/-- `1 - 3/b + 94.5/b²` with `b = 48/a²` -/
noncomputable def tK (a : ℝ) : ℝ := 1 - a ^ 2 / 16 + 21 / 512 * a ^ 4

theorem tK_pos {a : ℝ} (h : |a| ≤ 2) : 0 < tK a := by
  have : a ^ 2 ≤ 4 := by nlinarith [abs_le.1 h, sq_abs a]
  rw [tK]; nlinarith [pow_nonneg (sq_nonneg a) 2]

noncomputable def tQ2 (ν : ℝ) : ℝ := ν ^ 2 * hillAt ν * (Real.pi / 2) * tK (hillAt ν) ^ 2 / tD ν ^ 2

noncomputable def tR2 (w : ℝ) : ℝ := (1 + w / 4) * (1 - w / 8 + 3 / 128 * w ^ 2 + 651 / 4096 * w ^ 3 + 10521 / 262144 * w ^ 4) ^ 2

theorem tQ2_mul {ν : ℝ} (hν : 1 ≤ ν) : tQ2 ν * tQ2 (ν + 1) = tR2 (1 / (ν ^ 2 - 1 / 4)) := by
  have h : 0 < ν := by linarith
  have h1 := (tD_sq h).1
  have h2 := (tD_sq (show 0 < ν + 1 by linarith)).1
  have hm := tD_mul h
  have hpi := Real.pi_pos
  have e : tQ2 ν * tQ2 (ν + 1) = ν ^ 2 * (ν + 1) ^ 2 * (hillAt ν * hillAt (ν + 1)) * (Real.pi / 2) ^ 2 *
      (tK (hillAt ν) * tK (hillAt (ν + 1))) ^ 2 / (tD ν * tD (ν + 1)) ^ 2 := by
    rw [tQ2, tQ2]; field_simp
  obtain ⟨s, rfl⟩ : ∃ s, ν = s + 1 / 2 := ⟨ν - 1 / 2, by ring⟩
  have hs : 0 < s := by linarith
  have a0 : hillAt (s + 1 / 2) = 1 / s := by rw [hillAt]; congr 1; ring
  have a1 : hillAt (s + 1 / 2 + 1) = 1 / (s + 1) := by rw [hillAt]; congr 1; ring
  have am : (s + 1 / 2) ^ 2 - 1 / 4 = s * (s + 1) := by ring
  have e2 : tK (hillAt (s + 1 / 2)) * tK (hillAt (s + 1 / 2 + 1)) = 1 - 1 / ((s + 1 / 2) ^ 2 - 1 / 4) / 8 +
      3 / 128 * (1 / ((s + 1 / 2) ^ 2 - 1 / 4)) ^ 2 + 651 / 4096 * (1 / ((s + 1 / 2) ^ 2 - 1 / 4)) ^ 3 +
      10521 / 262144 * (1 / ((s + 1 / 2) ^ 2 - 1 / 4)) ^ 4 := by
    rw [a1, a0, am, tK, tK]
    field_simp
    ring
  have e3 : (s + 1 / 2) ^ 2 * (hillAt (s + 1 / 2) * hillAt (s + 1 / 2 + 1)) = 1 + 1 / ((s + 1 / 2) ^ 2 - 1 / 4) / 4 := by
    rw [a1, a0, am]
    field_simp
    ring
  rw [e, hm, e2, tR2, ← e3]
  field_simp

theorem tR2_eq (w : ℝ) : tR2 w = 1 + 671 / 2048 * w ^ 3 + 15609 / 131072 * w ^ 4 + 8061 / 1048576 * w ^ 5 + 27783 / 1048576 * w ^ 6 +
    10492083 / 536870912 * w ^ 7 + 329864913 / 68719476736 * w ^ 8 + 110691441 / 274877906944 * w ^ 9 := by
  rw [tR2]; ring

theorem tR2_mono {v w : ℝ} (h0 : 0 ≤ v) (h : v ≤ w) : tR2 v ≤ tR2 w := by
  rw [tR2_eq, tR2_eq]; gcongr

theorem tR2_le {w : ℝ} (h0 : 0 ≤ w) (h1 : w ≤ 4 / 3) : tR2 w ≤ 1 + w ^ 3 := by
  have h3 := pow_nonneg h0 3
  have key : ∀ n, w ^ (3 + n) ≤ w ^ 3 * (4 / 3) ^ n := fun n => by
    rw [pow_add]; exact mul_le_mul_of_nonneg_left (pow_le_pow_left₀ h0 h1 n) h3
  have k1 := key 1; have k2 := key 2; have k3 := key 3; have k4 := key 4; have k5 := key 5; have k6 := key 6
  norm_num at k1 k2 k3 k4 k5 k6
  rw [tR2_eq]
  linarith

theorem tQ2_pos {ν : ℝ} (hν : 1 ≤ ν) : 0 < tQ2 ν := by
  obtain ⟨a0, a2⟩ := hillAt_mem hν
  have := tK_pos (show |hillAt ν| ≤ 2 by rwa [abs_of_pos a0])
  have h : 0 < ν := by linarith
  have := (tD_sq h).1
  have := Real.pi_pos
  rw [tQ2]; positivity

theorem tQ2_tendsto : Tendsto tQ2 atTop (𝓝 1) := by
  have ha : Tendsto hillAt atTop (𝓝 0) := hillAt_tendsto.mono_right nhdsWithin_le_nhds
  have hK : Tendsto (fun ν => (tK (hillAt ν) / (1 - hillAt ν ^ 2 / 16)) ^ 2) atTop (𝓝 1) := by
    have h1 : Tendsto (fun ν => tK (hillAt ν)) atTop (𝓝 (tK 0)) :=
      ((by unfold tK; fun_prop : Continuous tK).tendsto 0).comp ha
    have h2 := ((ha.pow 2).div_const 16).const_sub 1
    have := (h1.div h2 (by norm_num)).pow 2
    simpa [tK] using this
  have := tQ_tendsto.mul hK
  rw [mul_one] at this
  refine this.congr' ?_
  filter_upwards [eventually_ge_atTop 1] with ν hν
  obtain ⟨a0, a2⟩ := hillAt_mem hν
  have n : 1 - hillAt ν ^ 2 / 16 ≠ 0 := by nlinarith
  rw [tQ, tQ2, div_pow, div_mul_div_comm]
  rw [div_eq_div_iff (by have := (tD_sq (show 0 < ν by linarith)).1; positivity) (by have := (tD_sq (show 0 < ν by linarith)).1; positivity)]
  ring

theorem tQ2_ge_one {ν : ℝ} (hν : 1 ≤ ν) : 1 ≤ tQ2 ν := by
  have step : ∀ ν : ℝ, 1 ≤ ν → tQ2 (ν + 2) ≤ tQ2 ν := fun ν hν => by
    have h1 := tQ2_mul hν
    have h2 := tQ2_mul (show 1 ≤ ν + 1 by linarith)
    rw [show ν + 1 + 1 = ν + 2 by ring] at h2
    have n3 : 3 / 4 ≤ ν ^ 2 - 1 / 4 := by nlinarith
    have hr : tR2 (1 / ((ν + 1) ^ 2 - 1 / 4)) ≤ tR2 (1 / (ν ^ 2 - 1 / 4)) := by
      refine tR2_mono ?_ ?_
      · have : 0 < (ν + 1) ^ 2 - 1 / 4 := by nlinarith
        positivity
      · exact one_div_le_one_div_of_le (by linarith) (by nlinarith)
    have p1 := tQ2_pos (show 1 ≤ ν + 1 by linarith)
    rw [← h1, ← h2, mul_comm (tQ2 ν)] at hr
    exact le_of_mul_le_mul_left hr p1
  have hall : ∀ n : ℕ, tQ2 (ν + 2 * n) ≤ tQ2 ν := fun n => by
    induction n with
    | zero => simp
    | succ n ih =>
      refine le_trans (le_trans (le_of_eq ?_) (step (ν + 2 * n) (by have : (0 : ℝ) ≤ n := n.cast_nonneg; linarith))) ih
      congr 1; push_cast; ring
  have ht : Tendsto (fun n : ℕ => tQ2 (ν + 2 * n)) atTop (𝓝 1) :=
    tQ2_tendsto.comp (tendsto_atTop_add_const_left _ _ (tendsto_natCast_atTop_atTop.const_mul_atTop two_pos))
  exact le_of_tendsto' ht hall

theorem tQ2_le {ν : ℝ} (hν : 1 ≤ ν) : tQ2 ν ≤ 1 + hillAt ν ^ 6 := by
  have n3 : 3 / 4 ≤ ν ^ 2 - 1 / 4 := by nlinarith
  have hw0 : 0 ≤ 1 / (ν ^ 2 - 1 / 4) := by have : 0 < ν ^ 2 - 1 / 4 := by linarith
                                           positivity
  have hr := tR2_le hw0 (by rw [div_le_iff₀ (by linarith)]; linarith)
  have h1 := tQ2_mul hν
  have h2 := tQ2_ge_one (show 1 ≤ ν + 1 by linarith)
  have p0 := tQ2_pos hν
  have hle : tQ2 ν ≤ tR2 (1 / (ν ^ 2 - 1 / 4)) := by rw [← h1]; nlinarith
  have hwa : 1 / (ν ^ 2 - 1 / 4) ≤ hillAt ν ^ 2 := by
    rw [hillAt, div_pow, one_pow]
    have : 0 < ν - 1 / 2 := by linarith
    exact one_div_le_one_div_of_le (by positivity) (by nlinarith)
  have : (1 / (ν ^ 2 - 1 / 4)) ^ 3 ≤ (hillAt ν ^ 2) ^ 3 := pow_le_pow_left₀ hw0 hwa 3
  rw [← pow_mul] at this
  linarith

/-- the exact constant over the coded one -/
theorem tMK_near {ν : ℝ} (hν : 1 ≤ ν) : 1 ≤ tM ν * tK (hillAt ν) ∧ tM ν * tK (hillAt ν) ≤ 1 + hillAt ν ^ 6 := by
  obtain ⟨a0, a2⟩ := hillAt_mem hν
  have hk := tK_pos (show |hillAt ν| ≤ 2 by rwa [abs_of_pos a0])
  have h4 : 0 < ν := by linarith
  have hD := (tD_sq h4).1
  have hM0 : 0 < tM ν := by
    have h2 := Real.sqrt_pos.2 a0
    have h3 := Real.sqrt_pos.2 (half_pos Real.pi_pos)
    rw [tM]; positivity
  have e : tQ2 ν = (tM ν * tK (hillAt ν)) ^ 2 := by
    rw [tQ2, tM, mul_pow, div_pow, mul_pow, mul_pow, Real.sq_sqrt a0.le, Real.sq_sqrt (half_pos Real.pi_pos).le]
    ring
  have h1 := tQ2_ge_one hν
  have h2 := tQ2_le hν
  rw [e] at h1 h2
  have hs := mul_pos hM0 hk
  have h6 := pow_pos a0 6
  constructor <;> nlinarith

theorem tM_near2 {a : ℝ} (h0 : 0 < a) (h1 : a ≤ 1) : |tM (1 / a + 1 / 2) - (1 + a ^ 2 / 16 - 19 / 512 * a ^ 4)| ≤ 2 * a ^ 6 := by
  set ν := 1 / a + 1 / 2 with hν
  have hA : hillAt ν = a := by rw [hillAt, hν]; field_simp; ring
  have h1ν : 1 ≤ ν := by
    have : 1 ≤ 1 / a := by rw [le_div_iff₀ h0]; linarith
    linarith
  obtain ⟨hs1, hs2⟩ := tMK_near h1ν
  rw [hA] at hs1 hs2
  set s := tM ν * tK a with hs
  have hk2 : 15 / 16 ≤ tK a := by rw [tK]; nlinarith [pow_pos h0 4]
  have hk : 0 < tK a := by linarith
  have hM : tM ν - (1 + a ^ 2 / 16 - 19 / 512 * a ^ 4) = (s - 1 - a ^ 6 * (40 / 8192) + a ^ 8 * (399 / 262144)) / tK a := by
    rw [eq_div_iff hk.ne', sub_mul, ← hs, tK]; ring
  have h6 := pow_pos h0 6
  have h8 : a ^ 8 ≤ a ^ 6 := by
    have : a ^ 2 ≤ 1 := by nlinarith
    calc a ^ 8 = a ^ 6 * a ^ 2 := by ring
      _ ≤ a ^ 6 * 1 := mul_le_mul_of_nonneg_left this h6.le
      _ = _ := by ring
  have h8' := pow_pos h0 8
  rw [hM, abs_div, abs_of_pos hk, div_le_iff₀ hk, abs_le]
  constructor <;> nlinarith

/-! ### the coefficient of the tail branch -/

theorem hillKt_near {ν : ℝ} (hν : 2 ≤ ν) :
    |hillKt (hillBt (hillAt ν)) (hillCt (hillAt ν) (hillBt (hillAt ν))) - tK (hillAt ν)| ≤ hillAt ν ^ 6 := by
  obtain ⟨a0, -⟩ := hillAt_mem (show 1 ≤ ν by linarith)
  have a1 : hillAt ν ≤ 2 / 3 := by rw [hillAt, div_le_div_iff₀ (by linarith) (by norm_num)]; linarith
  set a := hillAt ν
  have ec : hillCt a (hillBt a) = 96.36 + a * (-16 + a * (-98 + 431.25 * a ^ 3)) := by
    rw [hillCt, hillBt]; field_simp; ring
  have a2 : a ^ 2 ≤ 4 / 9 := by nlinarith
  have a5 : a ^ 5 ≤ (2 / 3) ^ 5 := pow_le_pow_left₀ a0.le a1 5
  have a50 := pow_pos a0 5
  have ee : (96.36 : ℝ) + a * (-16 + a * (-98 + 431.25 * a ^ 3)) = 96.36 - 16 * a - 98 * a ^ 2 + 431.25 * a ^ 5 := by ring
  have c0 : 0 ≤ hillCt a (hillBt a) := by rw [ec, ee]; norm_num; linarith
  have c1 : hillCt a (hillBt a) ≤ 200 := by rw [ec, ee]; norm_num at a5 ⊢; nlinarith
  set c := hillCt a (hillBt a)
  have hb : 0 < hillBt a := by rw [hillBt]; positivity
  have e : hillKt (hillBt a) c - tK a = -(94.5 * c / (hillBt a ^ 2 * (hillBt a + c))) := by
    have : tK a = 1 - 3 / hillBt a + 94.5 / hillBt a ^ 2 := by rw [tK, hillBt]; field_simp; ring
    rw [this, hillKt]
    field_simp
    ring
  rw [e, abs_neg, abs_of_nonneg (by positivity)]
  have h3 : hillBt a ^ 2 * hillBt a ≤ hillBt a ^ 2 * (hillBt a + c) := mul_le_mul_of_nonneg_left (by linarith) (by positivity)
  calc 94.5 * c / (hillBt a ^ 2 * (hillBt a + c)) ≤ 94.5 * 200 / (hillBt a ^ 2 * hillBt a) := by gcongr
    _ = 94.5 * 200 / 110592 * a ^ 6 := by rw [hillBt]; field_simp; norm_num
    _ ≤ 1 * a ^ 6 := mul_le_mul_of_nonneg_right (by norm_num) (by positivity)
    _ = _ := one_mul _

/-- The coefficient of the tail branch is `dof √π Γ(dof/2) / (2 Γ((dof+1)/2))` up to a relative error of order `dof^-6`, with an
explicit constant. -/
theorem C63_coef_d {ν : ℝ} (hν : 2 ≤ ν) :
    ∃ d, qt_int_coef_d (fin ν) (qt_int_coef_a (fin ν)) (qt_int_coef_b (qt_int_coef_a (fin ν)))
        (qt_int_coef_c (qt_int_coef_a (fin ν)) (qt_int_coef_b (qt_int_coef_a (fin ν)))) = fin d ∧
      |d / (ν * √Real.pi * Real.Gamma (ν / 2) / (2 * Real.Gamma ((ν + 1) / 2))) - 1| ≤ 4 / (ν - 1 / 2) ^ 6 := by
  have hν1 : 1 ≤ ν := by linarith
  obtain ⟨ha0, ha2⟩ := hillAt_mem hν1
  have hB := hillBt_ge ha0 ha2
  have hC := hillCt_ge ha0 ha2
  have hν0 : 0 < ν := by linarith
  have n1 : ν - 1 / 2 ≠ 0 := by linarith
  have n2 : hillAt ν * hillAt ν ≠ 0 := by positivity
  have n3 : hillBt (hillAt ν) ≠ 0 := by linarith
  have n4 : hillBt (hillAt ν) + hillCt (hillAt ν) (hillBt (hillAt ν)) ≠ 0 := by linarith
  have eA : qt_int_coef_a (fin ν) = fin (hillAt ν) := by simp only [qt_int_coef_a, ideal, ifin_div _ n1, hillAt]
  have eB : qt_int_coef_b (fin (hillAt ν)) = fin (hillBt (hillAt ν)) := by simp only [qt_int_coef_b, ideal, ifin_div _ n2, hillBt]
  have eC : qt_int_coef_c (fin (hillAt ν)) (fin (hillBt (hillAt ν))) = fin (hillCt (hillAt ν) (hillBt (hillAt ν))) := by
    simp only [qt_int_coef_c, ideal, ifin_div _ n3, hillCt]
  have eD : qt_int_coef_d (fin ν) (fin (hillAt ν)) (fin (hillBt (hillAt ν))) (fin (hillCt (hillAt ν) (hillBt (hillAt ν)))) = fin (hillDt ν) := by
    simp only [qt_int_coef_d, SQRTHALFPI, Ideal.sqrtHalfPi, ideal, isqrt ha0.le, ifin_div _ n4, ifin_div _ n3, hillDt, hillKt]
  refine ⟨hillDt ν, by rw [eA, eB, eC, eD], ?_⟩
  have h1 := Real.Gamma_pos_of_pos (half_pos hν0)
  have h2 := Real.Gamma_pos_of_pos (show 0 < (ν + 1) / 2 by linarith)
  have e1 : ν * √Real.pi * Real.Gamma (ν / 2) / (2 * Real.Gamma ((ν + 1) / 2)) = tD ν := by
    rw [tD_eq hν0]; field_simp
  obtain ⟨m1, m2⟩ := tMK_near hν1
  have hk := hillKt_near hν
  have a1 : hillAt ν ≤ 2 / 3 := by rw [hillAt, div_le_div_iff₀ (by linarith) (by norm_num)]; linarith
  have e2 : hillDt ν / tD ν = tM ν * hillKt (hillBt (hillAt ν)) (hillCt (hillAt ν) (hillBt (hillAt ν))) := by
    rw [hillDt, tM]; ring
  have e3 : 4 / (ν - 1 / 2) ^ 6 = 4 * hillAt ν ^ 6 := by rw [hillAt, div_pow, one_pow]; ring
  have a6 := pow_pos ha0 6
  have hk2 : 15 / 16 ≤ tK (hillAt ν) := by rw [tK]; nlinarith [pow_pos ha0 4]
  have hM0 : 0 < tM ν := by
    by_contra h
    have := mul_nonpos_of_nonpos_of_nonneg (not_lt.1 h) (show 0 ≤ tK (hillAt ν) by linarith)
    linarith
  have a61 : hillAt ν ^ 6 ≤ 1 := pow_le_one₀ ha0.le (by linarith)
  have hM2 : tM ν ≤ 3 := by nlinarith
  rw [e1, e2, e3]
  obtain ⟨k1, k2⟩ := abs_le.1 hk
  set k := hillKt (hillBt (hillAt ν)) (hillCt (hillAt ν) (hillBt (hillAt ν)))
  have e4 : tM ν * k - 1 = (tM ν * tK (hillAt ν) - 1) + tM ν * (k - tK (hillAt ν)) := by ring
  have h5 : |tM ν * (k - tK (hillAt ν))| ≤ 3 * hillAt ν ^ 6 := by
    rw [abs_mul, abs_of_pos hM0]
    exact mul_le_mul hM2 hk (abs_nonneg _) (by norm_num)
  rw [e4]
  refine (abs_add_le _ _).trans ?_
  rw [abs_of_nonneg (by linarith)]
  linarith

/-! ### expansions to the fourth order -/

theorem inv_sqrt_near2 {u : ℝ} (h : |u| ≤ 1 / 2) : |(√(1 + u))⁻¹ - (1 - u / 2 + 3 * u ^ 2 / 8)| ≤ |u| ^ 3 := by
  obtain ⟨h0, h1⟩ := abs_le.1 h
  set s := √(1 + u) with hs
  have hss : s ^ 2 = 1 + u := Real.sq_sqrt (by linarith)
  have hs7 : 7 / 10 ≤ s := Real.le_sqrt_of_sq_le (by norm_num; linarith)
  have hs0 : 0 < s := by linarith
  have hu : u = s ^ 2 - 1 := by linarith
  have e : s⁻¹ - (1 - u / 2 + 3 * u ^ 2 / 8) = (1 - s) ^ 3 * ((3 * s ^ 2 + 9 * s + 8) / (8 * s)) := by rw [hu]; field_simp; ring
  have e2 : |u| ^ 3 = |1 - s| ^ 3 * (s + 1) ^ 3 := by
    rw [hu, ← mul_pow, show s ^ 2 - 1 = -((1 - s) * (s + 1)) by ring, abs_neg, abs_mul, abs_of_pos (show 0 < s + 1 by linarith)]
  rw [e, abs_mul, abs_pow, e2, abs_of_nonneg (show 0 ≤ (3 * s ^ 2 + 9 * s + 8) / (8 * s) by positivity)]
  refine mul_le_mul_of_nonneg_left ?_ (by positivity)
  rw [div_le_iff₀ (by positivity)]
  nlinarith [mul_pos hs0 hs0, mul_pos (mul_pos hs0 hs0) hs0, mul_pos (mul_pos hs0 hs0) (mul_pos hs0 hs0)]

theorem sinh_near2 : (fun z : ℝ => (Real.exp (z / 2) - Real.exp (-(z / 2))) / z - (1 + z ^ 2 / 24 + z ^ 4 / 1920)) =O[𝓝[>] 0] fun z => z ^ 6 := by
  have h := Real.exp_sub_sum_range_isBigO_pow 7
  have t1 : Tendsto (fun z : ℝ => z / 2) (𝓝 0) (𝓝 0) := by simpa using (continuous_id.div_const (2 : ℝ)).tendsto 0
  have t2 : Tendsto (fun z : ℝ => -(z / 2)) (𝓝 0) (𝓝 0) := by simpa using t1.neg
  have h1 := h.comp_tendsto t1
  have h2 := h.comp_tendsto t2
  have p1 : ((fun x : ℝ => x ^ 7) ∘ fun z => z / 2) =O[𝓝 0] fun z : ℝ => z ^ 7 :=
    IsBigO.of_bound 1 (.of_forall fun z => by
      simp only [Function.comp_apply, div_pow, norm_div, norm_pow, Real.norm_eq_abs, one_mul]
      exact div_le_self (by positivity) (by norm_num))
  have p2 : ((fun x : ℝ => x ^ 7) ∘ fun z => -(z / 2)) =O[𝓝 0] fun z : ℝ => z ^ 7 :=
    IsBigO.of_bound 1 (.of_forall fun z => by
      simp only [Function.comp_apply, div_pow, norm_div, norm_pow, Real.norm_eq_abs, one_mul, abs_neg, norm_neg]
      exact div_le_self (by positivity) (by norm_num))
  have h3 := (h1.trans p1).sub (h2.trans p2)
  have h4 : (fun z : ℝ => Real.exp (z / 2) - Real.exp (-(z / 2)) - (z + z ^ 3 / 24 + z ^ 5 / 1920)) =O[𝓝 0] fun z => z ^ 7 := by
    refine h3.congr_left fun z => ?_
    simp only [Function.comp_apply, Finset.sum_range_succ, Finset.sum_range_zero, Nat.factorial]
    push_cast
    ring
  have h5 := (h4.mono (nhdsWithin_le_nhds (s := Set.Ioi 0))).mul (isBigO_refl (fun z : ℝ => z⁻¹) (𝓝[>] 0))
  refine h5.congr' ?_ ?_ <;>
  · filter_upwards [self_mem_nhdsWithin] with z hz
    have : z ≠ 0 := (Set.mem_Ioi.1 hz).ne'
    field_simp

theorem tS_eq {z : ℝ} (hz : 0 < z) : tS z = (√(1 + ((Real.exp (z / 2) - Real.exp (-(z / 2))) / z - 1)))⁻¹ := by
  have he : 0 < Real.exp z - 1 := by linarith [Real.add_one_lt_exp hz.ne']
  have e1 : 1 + ((Real.exp (z / 2) - Real.exp (-(z / 2))) / z - 1) = (Real.exp z - 1) / z * (Real.exp (-(z / 4))) ^ 2 := by
    rw [← Real.exp_nat_mul]
    have : Real.exp (z / 2) = Real.exp z * Real.exp (-(z / 2)) := by rw [← Real.exp_add]; congr 1; ring
    rw [show ((2 : ℕ) : ℝ) * -(z / 4) = -(z / 2) by push_cast; ring, this]
    ring
  rw [e1, Real.sqrt_mul (by positivity), Real.sqrt_sq (Real.exp_pos _).le, mul_inv, ← Real.sqrt_inv, inv_div, ← Real.exp_neg, neg_neg, tS, mul_comm]

theorem tS_near2 : (fun z => tS z - (1 - z ^ 2 / 48 + z ^ 4 / 2560)) =O[𝓝[>] 0] fun z => z ^ 6 := by
  set u : ℝ → ℝ := fun z => (Real.exp (z / 2) - Real.exp (-(z / 2))) / z - 1 with hu
  have hy : Tendsto (fun z : ℝ => z) (𝓝[>] 0) (𝓝 0) := tendsto_nhdsWithin_of_tendsto_nhds tendsto_id
  have hpw : ∀ m n : ℕ, (fun z : ℝ => z ^ (m + n)) =O[𝓝[>] 0] fun z => z ^ m := fun m n =>
    ((isBigO_refl (fun z : ℝ => z ^ m) _).mul (((hy.pow n).isBigO_one ℝ))).congr (fun z => by ring) fun z => by ring
  have h1 : (fun z => u z - (z ^ 2 / 24 + z ^ 4 / 1920)) =O[𝓝[>] 0] fun z => z ^ 6 := sinh_near2.congr_left fun z => by rw [hu]; ring
  have q2 : (fun z : ℝ => z ^ 2 / 24) =O[𝓝[>] 0] fun z => z ^ 2 :=
    (isBigO_const_mul_self (1 / 24) (fun z : ℝ => z ^ 2) _).congr_left fun z => by ring
  have q4 : (fun z : ℝ => z ^ 4 / 1920) =O[𝓝[>] 0] fun z => z ^ 4 :=
    (isBigO_const_mul_self (1 / 1920) (fun z : ℝ => z ^ 4) _).congr_left fun z => by ring
  have h2 : u =O[𝓝[>] 0] fun z => z ^ 2 :=
    ((h1.trans (hpw 2 4)).add (q2.add (q4.trans (hpw 2 2)))).congr_left fun z => by ring
  have hu0 : Tendsto u (𝓝[>] 0) (𝓝 0) := h2.trans_tendsto (by simpa using hy.pow 2)
  have h3 : (fun z => (√(1 + u z))⁻¹ - (1 - u z / 2 + 3 * u z ^ 2 / 8)) =O[𝓝[>] 0] fun z => z ^ 6 := by
    have hb : (fun z => (√(1 + u z))⁻¹ - (1 - u z / 2 + 3 * u z ^ 2 / 8)) =O[𝓝[>] 0] fun z => u z ^ 3 := by
      refine IsBigO.of_bound 1 ?_
      have : ∀ᶠ z in 𝓝[>] (0 : ℝ), |u z| ≤ 1 / 2 := by
        have := hu0.abs
        rw [abs_zero] at this
        exact (this.eventually_lt_const one_half_pos).mono fun _ => le_of_lt
      filter_upwards [this] with z hz
      rw [one_mul, Real.norm_eq_abs, Real.norm_eq_abs, abs_pow]
      exact inv_sqrt_near2 hz
    exact hb.trans ((h2.pow 3).congr_right fun z => by ring)
  -- the square of `u`
  have h5 : (fun z => u z ^ 2 - z ^ 4 / 576) =O[𝓝[>] 0] fun z => z ^ 6 := by
    have a1 : (fun z => u z - z ^ 2 / 24) =O[𝓝[>] 0] fun z => z ^ 4 :=
      ((h1.trans (hpw 4 2)).add q4).congr_left fun z => by ring
    exact (a1.mul (h2.add q2)).congr (fun z => by ring) fun z => by ring
  have h4 : (fun z => u z / 2 - (z ^ 2 / 48 + z ^ 4 / 3840)) =O[𝓝[>] 0] fun z => z ^ 6 :=
    (h1.const_mul_left (1 / 2)).congr_left fun z => by ring
  have h6 := h5.const_mul_left (3 / 8)
  refine ((h3.sub h4).add h6).congr' ?_ .rfl
  filter_upwards [self_mem_nhdsWithin] with z hz
  rw [tS_eq hz]; ring

theorem near_mul2 (X : ℝ) {f g : ℝ × ℝ → ℝ} (α α' β β' : ℝ → ℝ) (hα : Continuous α) (hα' : Continuous α') (hβ : Continuous β) (hβ' : Continuous β')
    (hf : (fun r => f r - (1 + r.1 ^ 2 * α r.2 + r.1 ^ 4 * α' r.2)) =O[near X] fun r => r.1 ^ 5)
    (hg : (fun r => g r - (1 + r.1 ^ 2 * β r.2 + r.1 ^ 4 * β' r.2)) =O[near X] fun r => r.1 ^ 5) :
    (fun r => f r * g r - (1 + r.1 ^ 2 * (α r.2 + β r.2) + r.1 ^ 4 * (α' r.2 + β' r.2 + α r.2 * β r.2))) =O[near X] fun r => r.1 ^ 5 := by
  have a1 := near_poly X hα
  have b1 := near_poly X hβ
  have a2 := near_poly X hα'
  have b2 := near_poly X hβ'
  have q : ∀ n, (fun r : ℝ × ℝ => r.1 ^ n) =O[near X] fun _ => (1 : ℝ) := fun n => ((near_a0 X).pow n).isBigO_one ℝ
  have F1 : (fun r : ℝ × ℝ => 1 + r.1 ^ 2 * α r.2 + r.1 ^ 4 * α' r.2) =O[near X] fun _ => (1 : ℝ) :=
    ((isBigO_refl _ _).add (((q 2).mul a1).congr_right fun _ => by norm_num)).add (((q 4).mul a2).congr_right fun _ => by norm_num)
  have G1 : (fun r : ℝ × ℝ => 1 + r.1 ^ 2 * β r.2 + r.1 ^ 4 * β' r.2) =O[near X] fun _ => (1 : ℝ) :=
    ((isBigO_refl _ _).add (((q 2).mul b1).congr_right fun _ => by norm_num)).add (((q 4).mul b2).congr_right fun _ => by norm_num)
  have g1 : g =O[near X] fun _ => (1 : ℝ) := ((hg.trans (q 5)).add G1).congr_left fun r => by ring
  have t1 := (hf.mul g1).congr_right (g₂ := fun r : ℝ × ℝ => r.1 ^ 5) fun r => by ring
  have t2 := (F1.mul hg).congr_right (g₂ := fun r : ℝ × ℝ => r.1 ^ 5) fun r => by ring
  have t3 : (fun r : ℝ × ℝ => r.1 ^ 6 * (α r.2 * β' r.2 + α' r.2 * β r.2) + r.1 ^ 8 * (α' r.2 * β' r.2)) =O[near X] fun r => r.1 ^ 5 := by
    have h1 : (fun r : ℝ × ℝ => α r.2 * β' r.2 + α' r.2 * β r.2) =O[near X] fun _ => (1 : ℝ) :=
      ((a1.mul b2).add (a2.mul b1)).congr_right fun _ => by norm_num
    have h2 : (fun r : ℝ × ℝ => α' r.2 * β' r.2) =O[near X] fun _ => (1 : ℝ) := (a2.mul b2).congr_right fun _ => by norm_num
    exact (((near_pow X (show 5 ≤ 6 by norm_num)).mul h1).congr_right fun r => by ring).add
      (((near_pow X (show 5 ≤ 8 by norm_num)).mul h2).congr_right fun r => by ring)
  exact ((t1.add t2).add t3).congr_left fun r => by ring

theorem near_bdd (X : ℝ) {g : ℝ × ℝ → ℝ} (hg : Continuous g) : g =O[near X] fun _ => (1 : ℝ) := by
  obtain ⟨C, hC⟩ := (isCompact_Icc.prod isCompact_Icc : IsCompact (Set.Icc (0 : ℝ) 1 ×ˢ Set.Icc (0 : ℝ) X)).exists_bound_of_continuousOn hg.continuousOn
  refine IsBigO.of_bound C ?_
  filter_upwards [near_x X, near_pos X, (near_a0 X).eventually_lt_const one_pos] with r h1 h2 h3
  simpa using hC r ⟨⟨h2.le, h3.le⟩, h1.1.le, h1.2⟩

/-! ### the transformed normal quantile -/

/-- the two coefficients of Hill's transformation -/
noncomputable def hb1 (x : ℝ) : ℝ := -(x ^ 2 + 3) / 48
noncomputable def hb2 (x : ℝ) : ℝ := (0.4 * x ^ 6 + 6.3 * x ^ 4 + 36 * x ^ 2 + 94.5) / 2304
noncomputable def tG2 (a x : ℝ) : ℝ := 1 + a ^ 2 * (hb1 x + a ^ 2 * hb2 x)
noncomputable def tY2 (a x : ℝ) : ℝ := x * tG2 a x
noncomputable def tY2d (a x : ℝ) : ℝ :=
  1 - a ^ 2 * (3 * x ^ 2 + 3) / 48 + a ^ 4 * ((2.8 * x ^ 6 + 31.5 * x ^ 4 + 108 * x ^ 2 + 94.5) / 2304)

theorem centre_ratio2 (X : ℝ) : (fun r : ℝ × ℝ => tM (1 / r.1 + 1 / 2) * Real.exp ((r.2 ^ 2 - tY2 r.1 r.2 ^ 2) / 2) *
    tS (r.1 * tY2 r.1 r.2 ^ 2) * tY2d r.1 r.2 - 1) =O[near X] fun r => r.1 ^ 5 := by
  have cb1 : Continuous hb1 := by unfold hb1; fun_prop
  have cb2 : Continuous hb2 := by unfold hb2; fun_prop
  have cG : Continuous fun r : ℝ × ℝ => tG2 r.1 r.2 := by unfold tG2; fun_prop
  have ck : Continuous fun r : ℝ × ℝ => hb1 r.2 + r.1 ^ 2 * hb2 r.2 := by fun_prop
  have p65 := near_pow X (show 5 ≤ 6 by norm_num)
  have big : ∀ {g : ℝ × ℝ → ℝ}, Continuous g → (fun r => r.1 ^ 6 * g r) =O[near X] fun r => r.1 ^ 5 := fun hg =>
    (p65.mul (near_bdd X hg)).congr_right fun r => by ring
  have fM : (fun r : ℝ × ℝ => tM (1 / r.1 + 1 / 2) - (1 + r.1 ^ 2 * (fun _ : ℝ => (1 / 16 : ℝ)) r.2 + r.1 ^ 4 * (fun _ : ℝ => (-19 / 512 : ℝ)) r.2))
      =O[near X] fun r => r.1 ^ 5 := by
    refine IsBigO.trans (IsBigO.of_bound 2 ?_) p65
    filter_upwards [near_pos X, (near_a0 X).eventually_lt_const one_pos] with r h0 h1
    rw [Real.norm_eq_abs, Real.norm_eq_abs, abs_of_pos (pow_pos h0 6)]
    have := tM_near2 h0 h1.le
    rwa [show 1 + r.1 ^ 2 / 16 - 19 / 512 * r.1 ^ 4 = 1 + r.1 ^ 2 * (1 / 16) + r.1 ^ 4 * (-19 / 512) by ring] at this
  -- the exponential
  have fE : (fun r : ℝ × ℝ => Real.exp ((r.2 ^ 2 - tY2 r.1 r.2 ^ 2) / 2) - (1 + r.1 ^ 2 * (fun x : ℝ => -x ^ 2 * hb1 x) r.2 +
      r.1 ^ 4 * (fun x : ℝ => -x ^ 2 * (hb2 x + hb1 x ^ 2 / 2) + (x ^ 2 * hb1 x) ^ 2 / 2) r.2)) =O[near X] fun r => r.1 ^ 5 := by
    set u : ℝ × ℝ → ℝ := fun r => (r.2 ^ 2 - tY2 r.1 r.2 ^ 2) / 2 with hu
    have e1 : ∀ r, u r = r.1 ^ 2 * (-r.2 ^ 2 * ((hb1 r.2 + r.1 ^ 2 * hb2 r.2) + r.1 ^ 2 * (hb1 r.2 + r.1 ^ 2 * hb2 r.2) ^ 2 / 2)) := fun r => by
      simp only [hu, tY2, tG2]; ring
    have h2 : u =O[near X] fun r => r.1 ^ 2 := by
      rw [show u = fun r => r.1 ^ 2 * (-r.2 ^ 2 * ((hb1 r.2 + r.1 ^ 2 * hb2 r.2) + r.1 ^ 2 * (hb1 r.2 + r.1 ^ 2 * hb2 r.2) ^ 2 / 2)) from funext e1]
      exact ((isBigO_refl _ _).mul (near_bdd X (by fun_prop))).congr_right fun r => by ring
    have hu0 : Tendsto u (near X) (𝓝 0) := h2.trans_tendsto (by simpa using (near_a0 X).pow 2)
    have h3 := ((Real.exp_sub_sum_range_isBigO_pow 3).comp_tendsto hu0).trans (((h2.pow 3).congr_right fun r => by ring : _ =O[near X] fun r => r.1 ^ 6).trans p65)
    have h4 : (fun r => 1 + u r + u r ^ 2 / 2 - (1 + r.1 ^ 2 * (-r.2 ^ 2 * hb1 r.2) +
        r.1 ^ 4 * (-r.2 ^ 2 * (hb2 r.2 + hb1 r.2 ^ 2 / 2) + (r.2 ^ 2 * hb1 r.2) ^ 2 / 2))) =O[near X] fun r => r.1 ^ 5 := by
      have cP : Continuous fun r : ℝ × ℝ => -r.2 ^ 2 * (hb1 r.2 * hb2 r.2 + r.1 ^ 2 * hb2 r.2 ^ 2 / 2) +
          r.2 ^ 4 * (hb2 r.2 + (hb1 r.2 + r.1 ^ 2 * hb2 r.2) ^ 2 / 2) *
            (2 * hb1 r.2 + r.1 ^ 2 * (hb2 r.2 + (hb1 r.2 + r.1 ^ 2 * hb2 r.2) ^ 2 / 2)) / 2 := by fun_prop
      refine (big cP).congr_left fun r => ?_
      rw [e1]; ring
    refine (h3.add h4).congr_left fun r => ?_
    simp only [Function.comp_apply, Finset.sum_range_succ, Finset.sum_range_zero, Nat.factorial]
    push_cast
    ring
  have hYp : ∀ᶠ r in near X, 0 < tY2 r.1 r.2 := by
    have hg : Tendsto (fun r : ℝ × ℝ => tG2 r.1 r.2) (near X) (𝓝 1) := by
      have := ((isBigO_refl (fun r : ℝ × ℝ => r.1 ^ 2) (near X)).mul (near_bdd X ck)).trans_tendsto (by simpa using (near_a0 X).pow 2)
      simpa [tG2] using this.const_add 1
    filter_upwards [near_x X, hg.eventually_const_lt one_pos] with r h1 h2
    exact mul_pos h1.1 h2
  have fS : (fun r : ℝ × ℝ => tS (r.1 * tY2 r.1 r.2 ^ 2) - (1 + r.1 ^ 2 * (fun x : ℝ => -(x ^ 4 / 48)) r.2 +
      r.1 ^ 4 * (fun x : ℝ => -(x ^ 4 * (4 * hb1 x) / 48) + x ^ 8 / 2560) r.2)) =O[near X] fun r => r.1 ^ 5 := by
    set z : ℝ × ℝ → ℝ := fun r => r.1 * tY2 r.1 r.2 ^ 2 with hz
    have hz1 : z =O[near X] fun r => r.1 :=
      ((isBigO_refl (fun r : ℝ × ℝ => r.1) (near X)).mul ((near_bdd X (g := fun r => tY2 r.1 r.2) (by unfold tY2; fun_prop)).pow 2)).congr_right fun r => by ring
    have hz0 : Tendsto z (near X) (𝓝[>] 0) := by
      refine tendsto_nhdsWithin_iff.2 ⟨hz1.trans_tendsto (near_a0 X), ?_⟩
      filter_upwards [near_pos X, hYp] with r h0 h1
      exact mul_pos h0 (pow_pos h1 2)
    have h1 := (tS_near2.comp_tendsto hz0).trans (((hz1.pow 6) : _ =O[near X] fun r => r.1 ^ 6).trans p65)
    have h2 : (fun r => z r ^ 2 / 48 - (r.1 ^ 2 * (r.2 ^ 4 / 48) + r.1 ^ 4 * (r.2 ^ 4 * (4 * hb1 r.2) / 48))) =O[near X] fun r => r.1 ^ 5 := by
      have cP : Continuous fun r : ℝ × ℝ => r.2 ^ 4 / 48 * (4 * hb2 r.2 + 6 * (hb1 r.2 + r.1 ^ 2 * hb2 r.2) ^ 2 +
          4 * r.1 ^ 2 * (hb1 r.2 + r.1 ^ 2 * hb2 r.2) ^ 3 + r.1 ^ 4 * (hb1 r.2 + r.1 ^ 2 * hb2 r.2) ^ 4) := by fun_prop
      refine (big cP).congr_left fun r => ?_
      simp only [hz, tY2, tG2]; ring
    have h3 : (fun r => z r ^ 4 / 2560 - r.1 ^ 4 * (r.2 ^ 8 / 2560)) =O[near X] fun r => r.1 ^ 5 := by
      have cP : Continuous fun r : ℝ × ℝ => r.2 ^ 8 / 2560 * ((hb1 r.2 + r.1 ^ 2 * hb2 r.2) * (tG2 r.1 r.2 + 1) * (tG2 r.1 r.2 ^ 2 + 1) * (tG2 r.1 r.2 ^ 4 + 1)) := by fun_prop
      refine (big cP).congr_left fun r => ?_
      have : r.1 ^ 2 * (hb1 r.2 + r.1 ^ 2 * hb2 r.2) = tG2 r.1 r.2 - 1 := by rw [tG2]; ring
      simp only [hz, tY2]
      linear_combination (r.1 ^ 4 * r.2 ^ 8 / 2560 * ((tG2 r.1 r.2 + 1) * (tG2 r.1 r.2 ^ 2 + 1) * (tG2 r.1 r.2 ^ 4 + 1))) * this
    refine ((h1.sub h2).add h3).congr_left fun r => ?_
    simp only [Function.comp_apply]; ring
  have fY : (fun r : ℝ × ℝ => tY2d r.1 r.2 - (1 + r.1 ^ 2 * (fun x : ℝ => -((3 * x ^ 2 + 3) / 48)) r.2 +
      r.1 ^ 4 * (fun x : ℝ => (2.8 * x ^ 6 + 31.5 * x ^ 4 + 108 * x ^ 2 + 94.5) / 2304) r.2)) =O[near X] fun r => r.1 ^ 5 :=
    (isBigO_zero _ _).congr_left fun r => by rw [tY2d]; ring
  have h1 := near_mul2 X (fun _ => 1 / 16) (fun _ => -19 / 512) (fun x => -x ^ 2 * hb1 x) (fun x => -x ^ 2 * (hb2 x + hb1 x ^ 2 / 2) + (x ^ 2 * hb1 x) ^ 2 / 2)
    (by fun_prop) (by fun_prop) (by fun_prop) (by fun_prop) fM fE
  have h2 := near_mul2 X (fun x => 1 / 16 + -x ^ 2 * hb1 x) (fun x => -19 / 512 + (-x ^ 2 * (hb2 x + hb1 x ^ 2 / 2) + (x ^ 2 * hb1 x) ^ 2 / 2) + 1 / 16 * (-x ^ 2 * hb1 x))
    (fun x => -(x ^ 4 / 48)) (fun x => -(x ^ 4 * (4 * hb1 x) / 48) + x ^ 8 / 2560)
    (by fun_prop) (by fun_prop) (by fun_prop) (by fun_prop) h1 fS
  have h3 := near_mul2 X (fun x => 1 / 16 + -x ^ 2 * hb1 x + -(x ^ 4 / 48))
    (fun x => -19 / 512 + (-x ^ 2 * (hb2 x + hb1 x ^ 2 / 2) + (x ^ 2 * hb1 x) ^ 2 / 2) + 1 / 16 * (-x ^ 2 * hb1 x) +
      (-(x ^ 4 * (4 * hb1 x) / 48) + x ^ 8 / 2560) + (1 / 16 + -x ^ 2 * hb1 x) * (-(x ^ 4 / 48)))
    (fun x => -((3 * x ^ 2 + 3) / 48)) (fun x => (2.8 * x ^ 6 + 31.5 * x ^ 4 + 108 * x ^ 2 + 94.5) / 2304)
    (by fun_prop) (by fun_prop) (by fun_prop) (by fun_prop) h2 fY
  refine h3.congr_left fun r => ?_
  simp only [hb1, hb2]
  ring

theorem tY2_deriv (a x : ℝ) : HasDerivAt (tY2 a) (tY2d a x) x := by
  have e : tY2 a = fun x => x - a ^ 2 / 48 * (x ^ 3 + 3 * x) + a ^ 4 / 2304 * (0.4 * x ^ 7 + 6.3 * x ^ 5 + 36 * x ^ 3 + 94.5 * x) := by
    funext x; rw [tY2, tG2, hb1, hb2]; ring
  rw [e]
  have h1 := hasDerivAt_id' x
  have h3 := hasDerivAt_pow 3 x
  have h5 := hasDerivAt_pow 5 x
  have h7 := hasDerivAt_pow 7 x
  have := (h1.sub ((h3.add (h1.const_mul 3)).const_mul (a ^ 2 / 48))).add
    (((((h7.const_mul 0.4).add (h5.const_mul 6.3)).add (h3.const_mul 36)).add (h1.const_mul 94.5)).const_mul (a ^ 4 / 2304))
  refine this.congr_deriv ?_
  rw [tY2d]; push_cast; ring

theorem tY2_pos (X : ℝ) : ∀ᶠ r in near X, 0 < tY2 r.1 r.2 := by
  have ck : Continuous fun r : ℝ × ℝ => hb1 r.2 + r.1 ^ 2 * hb2 r.2 := by unfold hb1 hb2; fun_prop
  have hg : Tendsto (fun r : ℝ × ℝ => tG2 r.1 r.2) (near X) (𝓝 1) := by
    have := ((isBigO_refl (fun r : ℝ × ℝ => r.1 ^ 2) (near X)).mul (near_bdd X ck)).trans_tendsto (by simpa using (near_a0 X).pow 2)
    simpa [tG2] using this.const_add 1
  filter_upwards [near_x X, hg.eventually_const_lt one_pos] with r h1 h2
  exact mul_pos h1.1 h2

theorem centre_prob2 (X : ℝ) : ∃ C, ∀ᶠ a in 𝓝[>] 0, ∀ x ∈ Set.Icc 0 X, |tCdfCoded (1 / a + 1 / 2) (tT a (tY2 a x)) - Phi x| ≤ C * a ^ 5 :=
  centre_of X 5 (fun a => by simp [tY2]) tY2_deriv (tY2_pos X) (centre_ratio2 X)

/-! ### the code -/

theorem hillC2t_near (x : ℝ) : (fun ν => 48 - hillC2t ν x * hillAt ν ^ 2) =O[atTop] hillAt := by
  have ha : Tendsto hillAt atTop (𝓝 0) := hillAt_tendsto.mono_right nhdsWithin_le_nhds
  have hd : (fun ν => hillDt ν * hillAt ν ^ 2) =O[atTop] hillAt := by
    have h0 : (fun ν => 2 * (ν * hillAt ν) * hillAt ν) =O[atTop] hillAt :=
      (((hillAt_mul.const_mul 2).isBigO_one ℝ).mul (isBigO_refl hillAt atTop)).congr_right fun ν => by ring
    refine IsBigO.trans (IsBigO.of_bound 1 ?_) h0
    filter_upwards [eventually_ge_atTop 2] with ν hν
    obtain ⟨d0, -, d2⟩ := hillDt_sq (show 1 ≤ ν by linarith)
    have a0 := (hillAt_mem (show 1 ≤ ν by linarith)).1
    have hd : hillDt ν ≤ 2 * ν := by
      refine le_of_sq_le_sq (d2.trans ?_) (by linarith)
      have h1 : ν ^ 2 / (ν - 1 / 2) ≤ ν ^ 2 := div_le_self (sq_nonneg ν) (by linarith)
      have := Real.pi_lt_four
      nlinarith [sq_nonneg ν, Real.pi_pos]
    rw [one_mul, Real.norm_eq_abs, Real.norm_eq_abs, abs_of_pos (by positivity), abs_of_pos (by positivity)]
    calc hillDt ν * hillAt ν ^ 2 ≤ 2 * ν * hillAt ν ^ 2 := mul_le_mul_of_nonneg_right hd (sq_nonneg _)
      _ = _ := by ring
  have hb : (fun ν => hillAt ν * (hillAt ν * (96.36 + hillAt ν * (-16 + hillAt ν * (-98 + 431.25 * hillAt ν ^ 3)) + x * (-2 + x * (-7 + x * -5))))) =O[atTop] hillAt := by
    have h1 : Tendsto (fun a : ℝ => a * (96.36 + a * (-16 + a * (-98 + 431.25 * a ^ 3)) + x * (-2 + x * (-7 + x * -5)))) (𝓝 0) (𝓝 _) :=
      Continuous.tendsto (by fun_prop) 0
    exact ((isBigO_refl hillAt atTop).mul ((h1.comp ha).isBigO_one ℝ)).congr_right fun ν => by ring
  refine ((hb.add (hd.const_mul_left (0.05 * x ^ 4))).neg_left).congr' ?_ .rfl
  filter_upwards [eventually_ge_atTop 1] with ν hν
  have a0 := (hillAt_mem hν).1
  have e : hillCt (hillAt ν) (hillBt (hillAt ν)) = 96.36 + hillAt ν * (-16 + hillAt ν * (-98 + 431.25 * hillAt ν ^ 3)) := by
    rw [hillCt, hillBt]; field_simp; ring
  have eb : hillBt (hillAt ν) * hillAt ν ^ 2 = 48 := by rw [hillBt]; field_simp
  rw [hillC2t, e, add_mul, add_mul, eb]
  ring

theorem hillYt_near2 (x : ℝ) : (fun ν => hillYt ν x - tY2 (hillAt ν) x) =O[atTop] fun ν => hillAt ν ^ 5 := by
  set q := x * x * (36 + x * x * (6.3 + x * x * 0.4)) + 94.5 with hq
  have h1 : (fun ν => x * (q / (hillC2t ν x * hillAt ν ^ 2) / 2304)) =O[atTop] fun _ => (1 : ℝ) :=
    ((((tendsto_const_nhds (x := q)).div (hillC2t_tendsto x) (by norm_num)).div_const 2304).const_mul x).isBigO_one ℝ
  have h2 := ((isBigO_refl (fun ν => hillAt ν ^ 4) atTop).mul h1).mul (hillC2t_near x)
  refine h2.congr' ?_ (.of_forall fun ν => by ring)
  filter_upwards [eventually_ge_atTop 1, (hillC2t_tendsto x).eventually_const_lt (show (0 : ℝ) < 48 by norm_num)] with ν hν hc
  have a0 := (hillAt_mem hν).1
  have hc : hillC2t ν x ≠ 0 := fun h => by rw [h, zero_mul] at hc; exact lt_irrefl _ hc
  have e2 : tY2 (hillAt ν) x = x * (1 + hillAt ν ^ 2 * (-(x * x + 3) / 48 + hillAt ν ^ 2 * (q / 2304))) := by
    rw [tY2, tG2, hb1, hb2, hq]; ring
  rw [hillYt, ← hq, e2, hillBt]
  field_simp
  ring

theorem tY2_tendsto (x : ℝ) : Tendsto (fun ν => tY2 (hillAt ν) x) atTop (𝓝 x) := by
  have ha : Tendsto hillAt atTop (𝓝 0) := hillAt_tendsto.mono_right nhdsWithin_le_nhds
  have : Tendsto (fun a => tY2 a x) (𝓝 0) (𝓝 (tY2 0 x)) := (by unfold tY2 tG2; fun_prop : Continuous fun a => tY2 a x).tendsto 0
  rw [show tY2 0 x = x by rw [tY2, tG2]; ring] at this
  exact this.comp ha

theorem hill_tT_near {x : ℝ} (hx : x ≠ 0) :
    (fun ν => tT (hillAt ν) (hillYt ν x) - tT (hillAt ν) (tY2 (hillAt ν) |x|)) =O[atTop] fun ν => hillAt ν ^ 5 := by
  have ha : Tendsto hillAt atTop (𝓝 0) := hillAt_tendsto.mono_right nhdsWithin_le_nhds
  set Z : ℝ → ℝ := fun ν => hillAt ν * hillYt ν x ^ 2 with hZ
  set V : ℝ → ℝ := fun ν => hillAt ν * tY2 (hillAt ν) x ^ 2 with hV
  have hV0 : Tendsto V atTop (𝓝 0) := by simpa using ha.mul ((tY2_tendsto x).pow 2)
  have hZ0 : Tendsto Z atTop (𝓝 0) := by simpa using ha.mul ((hillYt_tendsto x).pow 2)
  have hZV : (fun ν => Z ν - V ν) =O[atTop] fun ν => hillAt ν ^ 6 := by
    have h1 := ((isBigO_refl hillAt atTop).mul (hillYt_near2 x)).mul (((hillYt_tendsto x).add (tY2_tendsto x)).isBigO_one ℝ)
    refine h1.congr (fun ν => ?_) fun ν => by ring
    simp only [hZ, hV]; ring
  have hEE : (fun ν => Real.exp (Z ν) - Real.exp (V ν)) =O[atTop] fun ν => hillAt ν ^ 6 := by
    have h0 : Tendsto (fun ν => Z ν - V ν) atTop (𝓝 0) := by simpa using hZ0.sub hV0
    have h1 := ((Real.exp_sub_sum_range_isBigO_pow 1).comp_tendsto h0)
    have h2 : (fun ν => Real.exp (V ν)) =O[atTop] fun _ => (1 : ℝ) := ((Real.continuous_exp.tendsto 0).comp hV0).isBigO_one ℝ
    refine ((h1.trans (hZV.congr_left fun ν => by simp)).mul h2).congr (fun ν => ?_) fun ν => by ring
    simp [sub_mul, ← Real.exp_add]
  have hD : (fun ν => ν * (Real.exp (Z ν) - 1) - ν * (Real.exp (V ν) - 1)) =O[atTop] fun ν => hillAt ν ^ 5 := by
    have hna : (fun ν : ℝ => ν * hillAt ν) =O[atTop] fun _ => (1 : ℝ) := hillAt_mul.isBigO_one ℝ
    have h1 := (isBigO_refl (fun ν : ℝ => ν) atTop).mul hEE
    have h2 : (fun ν => ν * hillAt ν ^ 6) =O[atTop] fun ν => hillAt ν ^ 5 :=
      (hna.mul (isBigO_refl (fun ν => hillAt ν ^ 5) atTop)).congr (fun ν => by ring) fun ν => by ring
    exact (h1.trans h2).congr_left fun ν => by ring
  have hE : ∀ᶠ ν in atTop, tT (hillAt ν) (tY2 (hillAt ν) |x|) = √(ν * (Real.exp (V ν) - 1)) ∧ tT (hillAt ν) (hillYt ν x) = √(ν * (Real.exp (Z ν) - 1)) := by
    filter_upwards [eventually_ge_atTop 1] with ν hν
    have e1 : 1 / hillAt ν + 1 / 2 = ν := by rw [hillAt, one_div_one_div]; ring
    have e2 : tY2 (hillAt ν) |x| ^ 2 = tY2 (hillAt ν) x ^ 2 := by
      have h6 : |x| ^ 6 = x ^ 6 := by rw [show 6 = 2 * 3 by norm_num, pow_mul, sq_abs, ← pow_mul]
      have h4 : |x| ^ 4 = x ^ 4 := by rw [show 4 = 2 * 2 by norm_num, pow_mul, sq_abs, ← pow_mul]
      rw [tY2, tY2, mul_pow, mul_pow, sq_abs, tG2, tG2, hb1, hb1, hb2, hb2, sq_abs, h4, h6]
    rw [tT, tT, e1, e2]
    exact ⟨rfl, rfl⟩
  have hx2 : 0 < x ^ 2 := by positivity
  have hA : ∀ᶠ ν in atTop, x ^ 2 / 2 ≤ ν * (Real.exp (Z ν) - 1) := by
    have h := (hillAt_mul.mul ((hillYt_tendsto x).pow 2))
    rw [one_mul] at h
    filter_upwards [h.eventually_const_lt (show x ^ 2 / 2 < x ^ 2 by linarith), eventually_ge_atTop 1] with ν h1 hν
    have h2 := mul_le_mul_of_nonneg_left (Real.add_one_le_exp (Z ν)) (show 0 ≤ ν by linarith)
    have : ν * (Z ν) = ν * hillAt ν * hillYt ν x ^ 2 := by simp only [hZ]; ring
    linarith
  have hden : (fun ν => (√(ν * (Real.exp (Z ν) - 1)) + √(ν * (Real.exp (V ν) - 1)))⁻¹) =O[atTop] fun _ => (1 : ℝ) := by
    refine IsBigO.of_bound (√(x ^ 2 / 2))⁻¹ ?_
    filter_upwards [hA] with ν h
    have h1 : √(x ^ 2 / 2) ≤ √(ν * (Real.exp (Z ν) - 1)) := Real.sqrt_le_sqrt h
    have h0 : 0 < √(x ^ 2 / 2) := Real.sqrt_pos.2 (by positivity)
    have h2 := Real.sqrt_nonneg (ν * (Real.exp (V ν) - 1))
    rw [Real.norm_eq_abs, norm_one, mul_one, abs_of_nonneg (by positivity)]
    exact inv_anti₀ h0 (by linarith)
  refine (hD.mul hden).congr' ?_ (.of_forall fun ν => by ring)
  filter_upwards [hE, hA, eventually_ge_atTop 1] with ν e hpos hν
  have a0 := (hillAt_mem hν).1
  have hz0 : 0 < ν * (Real.exp (Z ν) - 1) := by linarith
  have hv0 : 0 ≤ ν * (Real.exp (V ν) - 1) := by
    have : 0 ≤ V ν := by simp only [hV]; positivity
    have := Real.add_one_le_exp (V ν)
    exact mul_nonneg (by linarith) (by linarith)
  have hs := Real.sqrt_pos.2 hz0
  have hs2 := Real.sqrt_nonneg (ν * (Real.exp (V ν) - 1))
  rw [e.1, e.2, mul_inv_eq_iff_eq_mul₀ (by linarith)]
  nlinarith [Real.mul_self_sqrt hz0.le, Real.mul_self_sqrt hv0]

theorem hill_stage2 {ν x : ℝ} (hν : 5 ≤ ν) (hc : hillC2t ν x ≠ 0) :
    let a := qt_int_coef_a (fin ν)
    let b := qt_int_coef_b a
    let c := qt_int_coef_c a b
    let d := qt_int_coef_d (fin ν) a b c
    qt_int_y_1_stage2 (fin x * fin x) (fin x) b (b + c + fin x * (-2 + fin x * (-7 + fin x * (-5 + lit 0.05 * fin x * d)))) = fin (hillYt ν x) := by
  have hν1 : 1 ≤ ν := by linarith
  obtain ⟨ha0, ha2⟩ := hillAt_mem hν1
  have hB := hillBt_ge ha0 ha2
  have hC := hillCt_ge ha0 ha2
  have n1 : ν - 1 / 2 ≠ 0 := by linarith
  have n2 : hillAt ν * hillAt ν ≠ 0 := by positivity
  have n3 : hillBt (hillAt ν) ≠ 0 := by linarith
  have n4 : hillBt (hillAt ν) + hillCt (hillAt ν) (hillBt (hillAt ν)) ≠ 0 := by linarith
  have eA : qt_int_coef_a (fin ν) = fin (hillAt ν) := by simp only [qt_int_coef_a, ideal, ifin_div _ n1, hillAt]
  have eB : qt_int_coef_b (fin (hillAt ν)) = fin (hillBt (hillAt ν)) := by simp only [qt_int_coef_b, ideal, ifin_div _ n2, hillBt]
  have eC : qt_int_coef_c (fin (hillAt ν)) (fin (hillBt (hillAt ν))) = fin (hillCt (hillAt ν) (hillBt (hillAt ν))) := by
    simp only [qt_int_coef_c, ideal, ifin_div _ n3, hillCt]
  have eD : qt_int_coef_d (fin ν) (fin (hillAt ν)) (fin (hillBt (hillAt ν))) (fin (hillCt (hillAt ν) (hillBt (hillAt ν)))) = fin (hillDt ν) := by
    simp only [qt_int_coef_d, SQRTHALFPI, Ideal.sqrtHalfPi, ideal, isqrt ha0.le, ifin_div _ n4, ifin_div _ n3, hillDt, hillKt]
  have f1 : hillBt (hillAt ν) + hillCt (hillAt ν) (hillBt (hillAt ν)) + x * (-2 + x * (-7 + x * (-5 + 0.05 * x * hillDt ν))) = hillC2t ν x := rfl
  have f2 : x * (1 + ((x * x * (36 + x * x * (6.3 + x * x * 0.4)) + 94.5) / hillC2t ν x - x * x - 3) / hillBt (hillAt ν)) = hillYt ν x := rfl
  intro a b c d
  simp only [a, b, c, d, eA, eB, eC, eD]
  simp only [qt_int_y_1_stage2, ideal, f1, ifin_div _ hc, ifin_div _ n3, f2]

/-- The number the code has before it applies the exponential: were the exponential exact, the probability would be right up to
an error of order `dof^-5`. This determines the coefficients 3, 94.5, 36, 6.3 and 0.4. -/
theorem C63_qt_expansion (x : ℝ) : ∃ C : ℝ, ∀ᶠ ν in atTop, ∃ y : ℝ,
    (let a := qt_int_coef_a (fin ν)
     let b := qt_int_coef_b a
     let c := qt_int_coef_c a b
     let d := qt_int_coef_d (fin ν) a b c
     qt_int_y_1_stage2 (fin x * fin x) (fin x) b (b + c + fin x * (-2 + fin x * (-7 + fin x * (-5 + lit 0.05 * fin x * d)))) = fin y) ∧
    |(∫ t in Set.Iic (if x < 0 then -√(ν * (Real.exp (y ^ 2 / (ν - 1 / 2)) - 1)) else √(ν * (Real.exp (y ^ 2 / (ν - 1 / 2)) - 1))), tPdf ν t) -
      ∫ t in Set.Iic x, Real.exp (-t ^ 2 / 2) / √(2 * Real.pi)| ≤ C / ν ^ 5 := by
  have hP : ∫ t in Set.Iic x, Real.exp (-t ^ 2 / 2) / √(2 * Real.pi) = Phi x := by
    have := (isCdf_norm 0 one_pos).running x
    simp only [sub_zero, div_one] at this
    rw [← this]
    congr 1
    funext t
    rw [normPdf]; simp only [sub_zero, mul_one, one_pow]; ring
  have hhalf : Phi 0 = 1 / 2 := by have := Phi_neg 0; rw [neg_zero] at this; linarith
  obtain ⟨K, hK⟩ := centre_prob2 |x|
  have hK := hillAt_tendsto.eventually hK
  have core : ∃ C : ℝ, ∀ᶠ ν in atTop, |tCdfCoded ν (if x < 0 then -tT (hillAt ν) (hillYt ν x) else tT (hillAt ν) (hillYt ν x)) - Phi x| ≤ C * hillAt ν ^ 5 := by
    rcases eq_or_ne x 0 with hx | hx
    · refine ⟨0, ?_⟩
      filter_upwards [eventually_ge_atTop 1] with ν hν
      have hν0 : 0 < ν := by linarith
      have hF0 : tCdfCoded ν 0 = 1 / 2 := by
        have := Ord.tCdf_neg hν0 0
        rw [tCdfCoded_eq hν0]
        rw [neg_zero] at this
        linarith
      simp [hx, hillYt, tT, hF0, hhalf]
    · obtain ⟨M, hM⟩ := (hill_tT_near hx).bound
      refine ⟨M + K, ?_⟩
      filter_upwards [hM, hK, eventually_ge_atTop 1] with ν h2 h3 hν
      have hν0 : 0 < ν := by linarith
      have a0 := (hillAt_mem hν).1
      have e1 : 1 / hillAt ν + 1 / 2 = ν := by rw [hillAt, one_div_one_div]; ring
      have h3 := h3 |x| ⟨abs_nonneg x, le_rfl⟩
      rw [e1] at h3
      rw [Real.norm_eq_abs, Real.norm_eq_abs, abs_of_pos (pow_pos a0 5)] at h2
      set s := tT (hillAt ν) (hillYt ν x) with hs
      have h4 : |tCdfCoded ν s - Phi (abs x)| ≤ (M + K) * hillAt ν ^ 5 := by
        have := abs_sub_le (tCdfCoded ν s) (tCdfCoded ν (tT (hillAt ν) (tY2 (hillAt ν) |x|))) (Phi |x|)
        have := tCdfCoded_lip hν0 s (tT (hillAt ν) (tY2 (hillAt ν) |x|))
        linarith
      rcases lt_or_gt_of_ne hx with hneg | hpos
      · have e3 : tCdfCoded ν (-s) = 1 - tCdfCoded ν s := by rw [tCdfCoded_eq hν0, tCdfCoded_eq hν0, Ord.tCdf_neg hν0]
        rw [abs_of_neg hneg, Phi_neg] at h4
        rw [if_pos hneg, e3, show 1 - tCdfCoded ν s - Phi x = -(tCdfCoded ν s - (1 - Phi x)) by ring, abs_neg]
        exact h4
      · rw [abs_of_pos hpos] at h4
        rwa [if_neg (not_lt.2 hpos.le)]
  obtain ⟨C, hC⟩ := core
  refine ⟨|C| * 32, ?_⟩
  filter_upwards [hC, eventually_ge_atTop 5, (hillC2t_tendsto x).eventually_const_lt (show (0 : ℝ) < 48 by norm_num)] with ν h2 h5 hcν
  have hc : hillC2t ν x ≠ 0 := fun h => by rw [h, zero_mul] at hcν; exact lt_irrefl _ hcν
  have hν0 : 0 < ν := by linarith
  refine ⟨_, hill_stage2 h5 hc, ?_⟩
  have a0 := (hillAt_mem (show 1 ≤ ν by linarith)).1
  have eT : √(ν * (Real.exp (hillYt ν x ^ 2 / (ν - 1 / 2)) - 1)) = tT (hillAt ν) (hillYt ν x) := by
    have e1 : 1 / hillAt ν + 1 / 2 = ν := by rw [hillAt, one_div_one_div]; ring
    rw [tT, e1, hillAt]
    congr 4
    ring
  rw [(isCdf_tCoded hν0).running, hP, eT]
  have ha : hillAt ν ≤ 2 / ν := by
    rw [hillAt, div_le_div_iff₀ (by linarith) hν0]; linarith
  have h4 : hillAt ν ^ 5 ≤ (2 / ν) ^ 5 := pow_le_pow_left₀ a0.le ha 5
  calc _ ≤ C * hillAt ν ^ 5 := h2
    _ ≤ |C| * (2 / ν) ^ 5 := mul_le_mul (le_abs_self C) h4 (by positivity) (abs_nonneg C)
    _ = _ := by rw [div_pow]; ring

end Stats

namespace Stats.ExamplesC63
open Fl Spec
open scoped Stats.Exact

example := C63_coef_d (ν := 3) (by norm_num)
example := C63_qt_expansion (-2)

end Stats.ExamplesC63

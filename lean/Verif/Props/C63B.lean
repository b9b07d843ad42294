import Verif.Props.C63
import Verif.Spec.Limit

/-!
# C63, C43: the Student-t quantile for many degrees of freedom

At a fixed probability the code approximates the quantile by transforming a normal quantile. Its error is of order `dof^-4`,
on both sides of 1/2, and the limit is the normal quantile the code returns for infinitely many degrees of freedom.
-/

set_option linter.unusedSectionVars false
open Classical MeasureTheory Filter Topology Asymptotics
namespace Stats
open Fl Spec
variable [Lib] [Ideal]

/-! ### the constant of the density -/

theorem tD_mul {ν : ℝ} (h : 0 < ν) : tD ν * tD (ν + 1) = Real.pi / 2 * (ν + 1) := by
  have h1 := Real.Gamma_pos_of_pos (half_pos h)
  have h2 := Real.Gamma_pos_of_pos (show 0 < (ν + 1) / 2 by linarith)
  have hpi := Real.mul_self_sqrt Real.pi_pos.le
  rw [tD_eq h, tD_eq (by linarith), show (ν + 1 + 1) / 2 = ν / 2 + 1 by ring, Real.Gamma_add_one (half_pos h).ne']
  field_simp
  rw [show √Real.pi ^ 2 = Real.pi by rw [sq, hpi]]

/-- the square of the coded factor over the exact constant -/
noncomputable def tQ (ν : ℝ) : ℝ := ν ^ 2 * hillAt ν * (Real.pi / 2) * (1 - hillAt ν ^ 2 / 16) ^ 2 / tD ν ^ 2

noncomputable def tR (w : ℝ) : ℝ := (1 + w / 4) * (1 - w / 8 - 15 * w ^ 2 / 256) ^ 2

theorem tQ_mul {ν : ℝ} (hν : 1 ≤ ν) : tQ ν * tQ (ν + 1) = tR (1 / (ν ^ 2 - 1 / 4)) := by
  have h : 0 < ν := by linarith
  have h1 := (tD_sq h).1
  have h2 := (tD_sq (show 0 < ν + 1 by linarith)).1
  have hm := tD_mul h
  have hpi := Real.pi_pos
  have n1 : ν - 1 / 2 ≠ 0 := by linarith
  have n2 : ν + 1 / 2 ≠ 0 := by linarith
  have n3 : ν ^ 2 - 1 / 4 ≠ 0 := by nlinarith
  have e : tQ ν * tQ (ν + 1) = ν ^ 2 * (ν + 1) ^ 2 * (hillAt ν * hillAt (ν + 1)) * (Real.pi / 2) ^ 2 *
      ((1 - hillAt ν ^ 2 / 16) * (1 - hillAt (ν + 1) ^ 2 / 16)) ^ 2 / (tD ν * tD (ν + 1)) ^ 2 := by
    rw [tQ, tQ]; field_simp
  obtain ⟨s, rfl⟩ : ∃ s, ν = s + 1 / 2 := ⟨ν - 1 / 2, by ring⟩
  have hs : 0 < s := by linarith
  have a0 : hillAt (s + 1 / 2) = 1 / s := by rw [hillAt]; congr 1; ring
  have a1 : hillAt (s + 1 / 2 + 1) = 1 / (s + 1) := by rw [hillAt]; congr 1; ring
  have am : (s + 1 / 2) ^ 2 - 1 / 4 = s * (s + 1) := by ring
  have e2 : (1 - hillAt (s + 1 / 2) ^ 2 / 16) * (1 - hillAt (s + 1 / 2 + 1) ^ 2 / 16) =
      1 - 1 / ((s + 1 / 2) ^ 2 - 1 / 4) / 8 - 15 * (1 / ((s + 1 / 2) ^ 2 - 1 / 4)) ^ 2 / 256 := by
    rw [a1, a0, am]
    field_simp
    ring
  have e3 : (s + 1 / 2) ^ 2 * (hillAt (s + 1 / 2) * hillAt (s + 1 / 2 + 1)) = 1 + 1 / ((s + 1 / 2) ^ 2 - 1 / 4) / 4 := by
    rw [a1, a0, am]
    field_simp
    ring
  rw [e, hm, e2, tR, ← e3]
  field_simp

theorem tR_anti {v w : ℝ} (h0 : 0 ≤ v) (h : v ≤ w) (h1 : w ≤ 4 / 3) : tR w ≤ tR v := by
  have e : ∀ w, tR w = 1 - w ^ 2 * (21 / 128 + 11 / 1024 * w - 465 / 65536 * w ^ 2 - 225 / 262144 * w ^ 3) := fun w => by
    rw [tR]; ring
  rw [e, e]
  have b2 : v ^ 2 ≤ w ^ 2 := pow_le_pow_left₀ h0 h 2
  have hw : 0 ≤ w := h0.trans h
  have hp : v ^ 2 * (21 / 128 + 11 / 1024 * v - 465 / 65536 * v ^ 2 - 225 / 262144 * v ^ 3) ≤
      w ^ 2 * (21 / 128 + 11 / 1024 * w - 465 / 65536 * w ^ 2 - 225 / 262144 * w ^ 3) := by
    have m3 : v ^ 3 ≤ w ^ 3 := pow_le_pow_left₀ h0 h 3
    have q4 : w ^ 4 - v ^ 4 ≤ 32 / 9 * (w ^ 2 - v ^ 2) := by
      have : w ^ 4 - v ^ 4 = (w ^ 2 - v ^ 2) * (w ^ 2 + v ^ 2) := by ring
      have c1 : w ^ 2 ≤ (4 / 3) ^ 2 := pow_le_pow_left₀ hw h1 2
      nlinarith
    have q5 : w ^ 5 - v ^ 5 ≤ 64 / 9 * (w ^ 2 - v ^ 2) := by
      have : w ^ 5 - v ^ 5 = (w ^ 3 - v ^ 3) * v ^ 2 + w ^ 3 * (w ^ 2 - v ^ 2) := by ring
      have c3 : w ^ 3 ≤ (4 / 3) ^ 3 := pow_le_pow_left₀ hw h1 3
      have c2 : v ^ 2 ≤ (4 / 3) ^ 2 := pow_le_pow_left₀ h0 (h.trans h1) 2
      have c4 : w ^ 3 - v ^ 3 ≤ 2 * (w ^ 2 - v ^ 2) := by nlinarith [mul_nonneg (sub_nonneg.2 h) h0, mul_nonneg (sub_nonneg.2 h) hw]
      nlinarith
    nlinarith
  linarith

theorem tR_ge {w : ℝ} (h0 : 0 ≤ w) (h1 : w ≤ 4 / 3) : 1 - w ^ 2 / 4 ≤ tR w ∧ 0 < tR w := by
  have e : tR w = 1 - w ^ 2 * (21 / 128 + 11 / 1024 * w - 465 / 65536 * w ^ 2 - 225 / 262144 * w ^ 3) := by rw [tR]; ring
  have hb : 21 / 128 + 11 / 1024 * w - 465 / 65536 * w ^ 2 - 225 / 262144 * w ^ 3 ≤ 1 / 4 := by
    have := pow_nonneg h0 2
    have := pow_nonneg h0 3
    linarith
  have : 1 - w ^ 2 / 4 ≤ tR w := by rw [e]; nlinarith [sq_nonneg w]
  exact ⟨this, by nlinarith⟩

theorem tQ_pos {ν : ℝ} (hν : 1 ≤ ν) : 0 < tQ ν := by
  obtain ⟨a0, a2⟩ := hillAt_mem hν
  have := (tD_sq (show 0 < ν by linarith)).1
  have : 0 < 1 - hillAt ν ^ 2 / 16 := by nlinarith
  have := Real.pi_pos
  rw [tQ]; positivity

theorem tQ_tendsto : Tendsto tQ atTop (𝓝 1) := by
  have hinv : Tendsto (fun ν : ℝ => ν⁻¹) atTop (𝓝 0) := tendsto_inv_atTop_zero
  have ha : Tendsto hillAt atTop (𝓝 0) := by
    have : Tendsto (fun ν : ℝ => (ν - 1 / 2)⁻¹) atTop (𝓝 0) := tendsto_inv_atTop_zero.comp (tendsto_atTop_add_const_right _ _ tendsto_id)
    exact this.congr fun ν => by rw [hillAt, one_div (ν - 1 / 2)]
  have hna : Tendsto (fun ν => ν * hillAt ν) atTop (𝓝 1) := by
    have := (ha.div_const 2).const_add 1
    simp only [zero_div, add_zero] at this
    refine this.congr' ?_
    filter_upwards [eventually_ge_atTop 1] with ν hν
    have : ν - 1 / 2 ≠ 0 := by linarith
    rw [hillAt, eq_comm, mul_one_div, div_eq_iff this, add_mul, div_div, one_div_mul_eq_div, div_mul_cancel_left₀ this]
    ring
  have hk : Tendsto (fun ν => (1 - hillAt ν ^ 2 / 16) ^ 2) atTop (𝓝 1) := by
    have := (((ha.pow 2).div_const 16).const_sub 1).pow 2
    simpa using this
  have hup : Tendsto (fun ν => ν * hillAt ν * (1 - hillAt ν ^ 2 / 16) ^ 2) atTop (𝓝 1) := by
    simpa using hna.mul hk
  have hlo : Tendsto (fun ν : ℝ => ν * hillAt ν * (1 - hillAt ν ^ 2 / 16) ^ 2 / (1 + ν⁻¹)) atTop (𝓝 1) := by
    have := hup.div (hinv.const_add 1) (by norm_num)
    rwa [add_zero, div_one] at this
  refine tendsto_of_tendsto_of_tendsto_of_le_of_le' hlo hup ?_ ?_
  all_goals
    filter_upwards [eventually_ge_atTop 1] with ν hν
    obtain ⟨a0, a2⟩ := hillAt_mem hν
    have h : 0 < ν := by linarith
    obtain ⟨t0, t1, t2⟩ := tD_sq h
    have hpi := Real.pi_pos
    have t0' := pow_pos t0 2
    have hK : 0 ≤ ν * hillAt ν * (1 - hillAt ν ^ 2 / 16) ^ 2 := by positivity
    rw [tQ]
  · rw [div_le_div_iff₀ (by positivity) t0']
    have e : ν ^ 2 * hillAt ν * (Real.pi / 2) * (1 - hillAt ν ^ 2 / 16) ^ 2 * (1 + ν⁻¹) =
        ν * hillAt ν * (1 - hillAt ν ^ 2 / 16) ^ 2 * (Real.pi / 2 * (ν + 1)) := by field_simp
    rw [e]
    exact mul_le_mul_of_nonneg_left t2 hK
  · rw [div_le_iff₀ t0']
    have e : ν ^ 2 * hillAt ν * (Real.pi / 2) * (1 - hillAt ν ^ 2 / 16) ^ 2 =
        ν * hillAt ν * (1 - hillAt ν ^ 2 / 16) ^ 2 * (Real.pi / 2 * ν) := by ring
    rw [e]
    exact mul_le_mul_of_nonneg_left t1 hK

theorem tQ_le_one {ν : ℝ} (hν : 1 ≤ ν) : tQ ν ≤ 1 := by
  have step : ∀ ν : ℝ, 1 ≤ ν → tQ ν ≤ tQ (ν + 2) := fun ν hν => by
    have h1 := tQ_mul hν
    have h2 := tQ_mul (show 1 ≤ ν + 1 by linarith)
    rw [show ν + 1 + 1 = ν + 2 by ring] at h2
    have n3 : 3 / 4 ≤ ν ^ 2 - 1 / 4 := by nlinarith
    have hr : tR (1 / (ν ^ 2 - 1 / 4)) ≤ tR (1 / ((ν + 1) ^ 2 - 1 / 4)) := by
      refine tR_anti ?_ ?_ ?_
      · have : 0 < (ν + 1) ^ 2 - 1 / 4 := by nlinarith
        positivity
      · exact one_div_le_one_div_of_le (by linarith) (by nlinarith)
      · rw [div_le_iff₀ (by linarith)]; linarith
    have p1 := tQ_pos (show 1 ≤ ν + 1 by linarith)
    rw [← h1, ← h2, mul_comm] at hr
    exact le_of_mul_le_mul_left hr p1
  have hall : ∀ n : ℕ, tQ ν ≤ tQ (ν + 2 * n) := fun n => by
    induction n with
    | zero => simp
    | succ n ih =>
      refine ih.trans ((step _ (by have : (0 : ℝ) ≤ n := n.cast_nonneg; linarith)).trans_eq ?_)
      congr 1; push_cast; ring
  have ht : Tendsto (fun n : ℕ => tQ (ν + 2 * n)) atTop (𝓝 1) :=
    tQ_tendsto.comp (tendsto_atTop_add_const_left _ _ (tendsto_natCast_atTop_atTop.const_mul_atTop two_pos))
  exact ge_of_tendsto' ht hall

theorem tQ_ge {ν : ℝ} (hν : 1 ≤ ν) : 1 - hillAt ν ^ 4 / 4 ≤ tQ ν := by
  have n3 : 3 / 4 ≤ ν ^ 2 - 1 / 4 := by nlinarith
  have hw0 : 0 ≤ 1 / (ν ^ 2 - 1 / 4) := by have : 0 < ν ^ 2 - 1 / 4 := by linarith
                                           positivity
  have hr := tR_ge hw0 (by rw [div_le_iff₀ (by linarith)]; linarith)
  have h1 := tQ_mul hν
  have h2 := tQ_le_one (show 1 ≤ ν + 1 by linarith)
  have p0 := tQ_pos hν
  have hle : tR (1 / (ν ^ 2 - 1 / 4)) ≤ tQ ν := by rw [← h1]; nlinarith
  have hwa : 1 / (ν ^ 2 - 1 / 4) ≤ hillAt ν ^ 2 := by
    rw [hillAt, div_pow, one_pow]
    have : 0 < ν - 1 / 2 := by linarith
    exact one_div_le_one_div_of_le (by positivity) (by nlinarith)
  have : (1 / (ν ^ 2 - 1 / 4)) ^ 2 ≤ (hillAt ν ^ 2) ^ 2 := pow_le_pow_left₀ hw0 hwa 2
  have e4 : (hillAt ν ^ 2) ^ 2 = hillAt ν ^ 4 := by ring
  rw [e4] at this
  linarith [hr.1]

/-! ### expansions -/

theorem inv_sqrt_near {u : ℝ} (h : |u| ≤ 1 / 2) : |(√(1 + u))⁻¹ - (1 - u / 2)| ≤ u ^ 2 := by
  obtain ⟨h0, h1⟩ := abs_le.1 h
  set s := √(1 + u) with hs
  have hss : s ^ 2 = 1 + u := Real.sq_sqrt (by linarith)
  have hs7 : 7 / 10 ≤ s := Real.le_sqrt_of_sq_le (by norm_num; linarith)
  have hs0 : 0 < s := by linarith
  have hu : u = s ^ 2 - 1 := by linarith
  have e : s⁻¹ - (1 - u / 2) = (s - 1) ^ 2 * ((s + 2) / (2 * s)) := by rw [hu]; field_simp; ring
  have e2 : u ^ 2 = (s - 1) ^ 2 * (s + 1) ^ 2 := by rw [hu]; ring
  rw [e, abs_of_nonneg (by positivity), e2]
  refine mul_le_mul_of_nonneg_left ?_ (sq_nonneg _)
  rw [div_le_iff₀ (by positivity)]
  nlinarith

/-- `2 sinh (z/2) / z` -/
theorem sinh_near : (fun z : ℝ => (Real.exp (z / 2) - Real.exp (-(z / 2))) / z - (1 + z ^ 2 / 24)) =O[𝓝[>] 0] fun z => z ^ 4 := by
  have h := Real.exp_sub_sum_range_isBigO_pow 5
  have t1 : Tendsto (fun z : ℝ => z / 2) (𝓝 0) (𝓝 0) := by simpa using (continuous_id.div_const (2 : ℝ)).tendsto 0
  have t2 : Tendsto (fun z : ℝ => -(z / 2)) (𝓝 0) (𝓝 0) := by simpa using t1.neg
  have h1 := h.comp_tendsto t1
  have h2 := h.comp_tendsto t2
  have p1 : ((fun x : ℝ => x ^ 5) ∘ fun z => z / 2) =O[𝓝 0] fun z : ℝ => z ^ 5 :=
    IsBigO.of_bound 1 (.of_forall fun z => by
      simp only [Function.comp_apply, div_pow, norm_div, norm_pow, Real.norm_eq_abs, one_mul]
      exact div_le_self (by positivity) (by norm_num))
  have p2 : ((fun x : ℝ => x ^ 5) ∘ fun z => -(z / 2)) =O[𝓝 0] fun z : ℝ => z ^ 5 :=
    IsBigO.of_bound 1 (.of_forall fun z => by
      simp only [Function.comp_apply, div_pow, norm_div, norm_pow, Real.norm_eq_abs, one_mul, abs_neg, norm_neg]
      exact div_le_self (by positivity) (by norm_num))
  have h3 := (h1.trans p1).sub (h2.trans p2)
  have h4 : (fun z : ℝ => Real.exp (z / 2) - Real.exp (-(z / 2)) - (z + z ^ 3 / 24)) =O[𝓝 0] fun z => z ^ 5 := by
    refine h3.congr_left fun z => ?_
    simp only [Function.comp_apply, Finset.sum_range_succ, Finset.sum_range_zero, Nat.factorial]
    push_cast
    ring
  have h5 := (h4.mono (nhdsWithin_le_nhds (s := Set.Ioi 0))).mul (isBigO_refl (fun z : ℝ => z⁻¹) (𝓝[>] 0))
  refine h5.congr' ?_ ?_ <;>
  · filter_upwards [self_mem_nhdsWithin] with z hz
    have : z ≠ 0 := (Set.mem_Ioi.1 hz).ne'
    field_simp

/-- the factor of the change of variables -/
noncomputable def tS (z : ℝ) : ℝ := Real.exp (z / 4) * √(z / (Real.exp z - 1))

theorem tS_near : (fun z => tS z - (1 - z ^ 2 / 48)) =O[𝓝[>] 0] fun z => z ^ 4 := by
  set u : ℝ → ℝ := fun z => (Real.exp (z / 2) - Real.exp (-(z / 2))) / z - 1 with hu
  have hy : Tendsto (fun z : ℝ => z) (𝓝[>] 0) (𝓝 0) := tendsto_nhdsWithin_of_tendsto_nhds tendsto_id
  have hz2 : (fun z : ℝ => z ^ 4) =O[𝓝[>] 0] fun z => z ^ 2 :=
    ((isBigO_refl (fun z : ℝ => z ^ 2) _).mul (((hy.pow 2).isBigO_one ℝ))).congr (fun z => by ring) fun z => by ring
  have h1 : (fun z => u z - z ^ 2 / 24) =O[𝓝[>] 0] fun z => z ^ 4 := sinh_near.congr_left fun z => by rw [hu]; ring
  have h2 : u =O[𝓝[>] 0] fun z => z ^ 2 := by
    have : (fun z : ℝ => z ^ 2 / 24) =O[𝓝[>] 0] fun z => z ^ 2 :=
      (isBigO_const_mul_self (1 / 24) (fun z : ℝ => z ^ 2) _).congr_left fun z => by ring
    exact ((h1.trans hz2).add this).congr_left fun z => by ring
  have hu0 : Tendsto u (𝓝[>] 0) (𝓝 0) := h2.trans_tendsto (by simpa using hy.pow 2)
  have hS : ∀ᶠ z in 𝓝[>] (0 : ℝ), tS z = (√(1 + u z))⁻¹ := by
    filter_upwards [self_mem_nhdsWithin] with z hz
    have hz : 0 < z := hz
    have he : 0 < Real.exp z - 1 := by linarith [Real.add_one_lt_exp hz.ne']
    have e1 : 1 + u z = (Real.exp z - 1) / z * (Real.exp (-(z / 4))) ^ 2 := by
      rw [hu, ← Real.exp_nat_mul]
      have : Real.exp (z / 2) = Real.exp z * Real.exp (-(z / 2)) := by rw [← Real.exp_add]; congr 1; ring
      rw [show ((2 : ℕ) : ℝ) * -(z / 4) = -(z / 2) by push_cast; ring]
      show 1 + ((Real.exp (z / 2) - Real.exp (-(z / 2))) / z - 1) = _
      rw [this]
      ring
    rw [e1, Real.sqrt_mul (by positivity), Real.sqrt_sq (Real.exp_pos _).le, mul_inv, ← Real.sqrt_inv, inv_div, ← Real.exp_neg, neg_neg, tS, mul_comm]
  have h3 : (fun z => (√(1 + u z))⁻¹ - (1 - u z / 2)) =O[𝓝[>] 0] fun z => z ^ 4 := by
    have hb : (fun z => (√(1 + u z))⁻¹ - (1 - u z / 2)) =O[𝓝[>] 0] fun z => u z ^ 2 := by
      refine IsBigO.of_bound 1 ?_
      have : ∀ᶠ z in 𝓝[>] (0 : ℝ), |u z| ≤ 1 / 2 := by
        have := hu0.abs
        rw [abs_zero] at this
        exact (this.eventually_lt_const one_half_pos).mono fun _ => le_of_lt
      filter_upwards [this] with z hz
      rw [one_mul, Real.norm_eq_abs, Real.norm_eq_abs, abs_of_nonneg (sq_nonneg (u z))]
      exact inv_sqrt_near hz
    exact hb.trans ((h2.pow 2).congr_right fun z => by ring)
  have h4 : (fun z => u z / 2 - z ^ 2 / 48) =O[𝓝[>] 0] fun z => z ^ 4 :=
    (h1.const_mul_left (1 / 2)).congr_left fun z => by ring
  refine (h3.sub h4).congr' ?_ .rfl
  filter_upwards [hS] with z hz
  rw [hz]; ring

/-! ### the transformed normal quantile -/

/-- the second order of Hill's transformation, `a = 1/(dof - 1/2)` -/
noncomputable def tY (a x : ℝ) : ℝ := x * (1 - a ^ 2 * (x ^ 2 + 3) / 48)
noncomputable def tT (a y : ℝ) : ℝ := √((1 / a + 1 / 2) * (Real.exp (a * y ^ 2) - 1))
noncomputable def tM (ν : ℝ) : ℝ := ν * √(hillAt ν) * √(Real.pi / 2) / tD ν

/-- The density of the transformed variable over the normal density. -/
theorem tT_deriv {a x Y' : ℝ} {Y : ℝ → ℝ} (ha : 0 < a) (dY : HasDerivAt Y Y' x) (hyp : 0 < Y x) :
    HasDerivAt (fun x => tCdfCoded (1 / a + 1 / 2) (tT a (Y x)))
      (normPdf 0 1 x * (tM (1 / a + 1 / 2) * Real.exp ((x ^ 2 - Y x ^ 2) / 2) * tS (a * Y x ^ 2) * Y')) x := by
  set ν := 1 / a + 1 / 2 with hν
  have hν0 : 0 < ν := by positivity
  set z := a * Y x ^ 2 with hz
  have hz0 : 0 < z := by positivity
  have he : 0 < Real.exp z - 1 := by linarith [Real.add_one_lt_exp hz0.ne']
  have dT : HasDerivAt (fun x => tT a (Y x)) (ν * (Real.exp z * (a * (2 * Y x * Y'))) / (2 * tT a (Y x))) x := by
    have h1 := (((dY.pow 2).const_mul a).exp.sub_const 1).const_mul ν
    have h2 := h1.sqrt (by positivity)
    refine h2.congr_deriv ?_
    simp only [tT, Pi.pow_apply, ← hz, ← hν]
    norm_num
  have hT : 0 < tT a (Y x) := Real.sqrt_pos.2 (by positivity)
  have hT2 : tT a (Y x) ^ 2 = ν * (Real.exp z - 1) := Real.sq_sqrt (by positivity)
  have hF := ((isCdf_tCoded hν0).hasDerivAt (continuous_tPdf hν0) (tT a (Y x))).comp x dT
  refine hF.congr_deriv ?_
  have hA : hillAt ν = a := by rw [hillAt, hν]; field_simp; ring
  have hpdf : tPdf ν (tT a (Y x)) = ν / (2 * √ν * tD ν) * Real.exp (-(z * (ν + 1) / 2)) := by
    have h1 := Real.Gamma_pos_of_pos (half_pos hν0)
    have h2 := Real.Gamma_pos_of_pos (show 0 < (ν + 1) / 2 by linarith)
    have h3 := Real.sqrt_pos.2 hν0
    have h4 := Real.sqrt_pos.2 Real.pi_pos
    rw [tPdf, hT2, mul_div_cancel_left₀ _ hν0.ne', add_sub_cancel, ← Real.exp_mul, tD_eq hν0, Real.sqrt_mul hν0.le]
    rw [show z * -((ν + 1) / 2) = -(z * (ν + 1) / 2) by ring]
    congr 1
    field_simp
  have hTs : tT a (Y x) = √ν * √(Real.exp z - 1) := by rw [← Real.sqrt_mul hν0.le]; rfl
  have hzs : √z = √a * Y x := by rw [hz, Real.sqrt_mul ha.le, Real.sqrt_sq hyp.le]
  have hN : normPdf 0 1 x = Real.exp (-(x ^ 2 / 2)) / √(2 * Real.pi) := by
    rw [normPdf]; simp only [sub_zero, mul_one, one_pow]; rw [neg_div]; ring
  have hexp : Real.exp (-(z * (ν + 1) / 2)) * Real.exp z = Real.exp (-(x ^ 2 / 2)) * Real.exp ((x ^ 2 - Y x ^ 2) / 2) * Real.exp (z / 4) := by
    rw [← Real.exp_add, ← Real.exp_add, ← Real.exp_add]
    congr 1
    rw [hz, hν]; field_simp; ring
  have hsa := Real.sqrt_pos.2 ha
  have hsn := Real.sqrt_pos.2 hν0
  have hse := Real.sqrt_pos.2 he
  have hsp := Real.sqrt_pos.2 Real.pi_pos
  have hs2 := Real.sqrt_pos.2 (two_pos (α := ℝ))
  have hD := (tD_sq hν0).1
  have hpi2 : √(Real.pi / 2) / √(2 * Real.pi) = 1 / 2 := by
    rw [Real.sqrt_div Real.pi_pos.le, Real.sqrt_mul two_pos.le, div_div, show √2 * (√2 * √Real.pi) = (√2 * √2) * √Real.pi by ring,
      Real.mul_self_sqrt two_pos.le]
    field_simp
  rw [hpdf, tM, hA, tS, Real.sqrt_div hz0.le, hzs, hTs, hN]
  have haa : a = √a * √a := (Real.mul_self_sqrt ha.le).symm
  have hnn : √ν * √ν = ν := Real.mul_self_sqrt hν0.le
  calc _ = (Real.exp (-(z * (ν + 1) / 2)) * Real.exp z) * (ν / (√ν * √ν)) * (ν * a * Y x * Y' / (2 * tD ν * √(Real.exp z - 1))) := by
        field_simp
    _ = (Real.exp (-(x ^ 2 / 2)) * Real.exp ((x ^ 2 - Y x ^ 2) / 2) * Real.exp (z / 4)) * (ν * (√a * √a) * Y x * Y' / (tD ν * √(Real.exp z - 1))) * (1 / 2) := by
        rw [hexp, hnn, div_self hν0.ne', ← haa]; field_simp
    _ = _ := by rw [← hpi2]; field_simp

/-! ### uniformly on compact sets -/

/-- `a` to 0 from above, `x` in `(0, X]` -/
noncomputable def near (X : ℝ) : Filter (ℝ × ℝ) := 𝓝[>] 0 ×ˢ 𝓟 (Set.Ioc 0 X)

theorem near_a (X : ℝ) : Tendsto Prod.fst (near X) (𝓝[>] 0) := tendsto_fst
theorem near_a0 (X : ℝ) : Tendsto Prod.fst (near X) (𝓝 0) := (near_a X).mono_right nhdsWithin_le_nhds
theorem near_x (X : ℝ) : ∀ᶠ r in near X, r.2 ∈ Set.Ioc 0 X := tendsto_snd.eventually (mem_principal_self _)
theorem near_pos (X : ℝ) : ∀ᶠ r in near X, 0 < r.1 := (near_a X).eventually self_mem_nhdsWithin

theorem near_poly (X : ℝ) {g : ℝ → ℝ} (hg : Continuous g) : (fun r : ℝ × ℝ => g r.2) =O[near X] fun _ => (1 : ℝ) := by
  obtain ⟨C, hC⟩ := (isCompact_Icc (a := (0 : ℝ)) (b := X)).exists_bound_of_continuousOn hg.continuousOn
  refine IsBigO.of_bound C ((near_x X).mono fun r hr => ?_)
  simpa using hC r.2 ⟨hr.1.le, hr.2⟩

theorem near_pow (X : ℝ) {m n : ℕ} (h : n ≤ m) : (fun r : ℝ × ℝ => r.1 ^ m) =O[near X] fun r => r.1 ^ n := by
  obtain ⟨k, rfl⟩ := Nat.exists_eq_add_of_le h
  have := ((isBigO_refl (fun r : ℝ × ℝ => r.1 ^ n) (near X)).mul (((near_a0 X).pow k).isBigO_one ℝ))
  exact this.congr (fun r => by ring) fun r => by ring

theorem near_mul (X : ℝ) {f g : ℝ × ℝ → ℝ} {α β : ℝ → ℝ} (hα : Continuous α) (hβ : Continuous β)
    (hf : (fun r => f r - (1 + r.1 ^ 2 * α r.2)) =O[near X] fun r => r.1 ^ 4)
    (hg : (fun r => g r - (1 + r.1 ^ 2 * β r.2)) =O[near X] fun r => r.1 ^ 4) :
    (fun r => f r * g r - (1 + r.1 ^ 2 * (α r.2 + β r.2))) =O[near X] fun r => r.1 ^ 4 := by
  have a1 := near_poly X hα
  have b1 := near_poly X hβ
  have q1 : (fun r : ℝ × ℝ => r.1 ^ 2) =O[near X] fun _ => (1 : ℝ) := ((near_a0 X).pow 2).isBigO_one ℝ
  have q4 : (fun r : ℝ × ℝ => r.1 ^ 4) =O[near X] fun _ => (1 : ℝ) := ((near_a0 X).pow 4).isBigO_one ℝ
  have F1 : (fun r : ℝ × ℝ => 1 + r.1 ^ 2 * α r.2) =O[near X] fun _ => (1 : ℝ) :=
    (isBigO_refl _ _).add ((q1.mul a1).congr_right fun _ => by norm_num)
  have G1 : (fun r : ℝ × ℝ => 1 + r.1 ^ 2 * β r.2) =O[near X] fun _ => (1 : ℝ) :=
    (isBigO_refl _ _).add ((q1.mul b1).congr_right fun _ => by norm_num)
  have g1 : g =O[near X] fun _ => (1 : ℝ) := ((hg.trans q4).add G1).congr_left fun r => by ring
  have t1 := (hf.mul g1).congr_right (g₂ := fun r : ℝ × ℝ => r.1 ^ 4) fun r => by ring
  have t2 := (F1.mul hg).congr_right (g₂ := fun r : ℝ × ℝ => r.1 ^ 4) fun r => by ring
  have t3 := ((isBigO_refl (fun r : ℝ × ℝ => r.1 ^ 4) (near X)).mul (a1.mul b1)).congr_right (g₂ := fun r : ℝ × ℝ => r.1 ^ 4) fun r => by ring
  exact ((t1.add t2).add t3).congr_left fun r => by ring

theorem tM_near {a : ℝ} (h0 : 0 < a) (h1 : a ≤ 1) : |tM (1 / a + 1 / 2) - (1 + a ^ 2 / 16)| ≤ a ^ 4 := by
  set ν := 1 / a + 1 / 2 with hν
  have hA : hillAt ν = a := by rw [hillAt, hν]; field_simp; ring
  have h1ν : 1 ≤ ν := by
    have : 1 ≤ 1 / a := by rw [le_div_iff₀ h0]; linarith
    linarith
  have hQ1 := tQ_le_one h1ν
  have hQ2 := tQ_ge h1ν
  have hD := (tD_sq (show 0 < ν by linarith)).1
  have hM0 : 0 < tM ν := by
    have h2 := Real.sqrt_pos.2 h0
    have h3 := Real.sqrt_pos.2 (half_pos Real.pi_pos)
    have h4 : 0 < ν := by linarith
    rw [tM, hA]; positivity
  rw [hA] at hQ2
  have hk : 0 < 1 - a ^ 2 / 16 := by nlinarith
  have e : tQ ν = (tM ν * (1 - a ^ 2 / 16)) ^ 2 := by
    rw [tQ, tM, hA, mul_pow, div_pow, mul_pow, mul_pow, Real.sq_sqrt h0.le, Real.sq_sqrt (half_pos Real.pi_pos).le]
    ring
  set s := tM ν * (1 - a ^ 2 / 16) with hs
  have hs0 : 0 < s := mul_pos hM0 hk
  have hs1 : s ≤ 1 := by nlinarith
  have hs2 : 1 - a ^ 4 / 4 ≤ s := by nlinarith
  have hM : tM ν - (1 + a ^ 2 / 16) = (s - 1 + a ^ 4 / 256) / (1 - a ^ 2 / 16) := by
    rw [eq_div_iff hk.ne', sub_mul, ← hs]; ring
  have h4 := pow_pos h0 4
  have hk2 : 15 / 16 ≤ 1 - a ^ 2 / 16 := by nlinarith
  rw [hM, abs_div, abs_of_pos hk, div_le_iff₀ hk, abs_le]
  constructor <;> nlinarith

theorem centre_ratio (X : ℝ) : (fun r : ℝ × ℝ => tM (1 / r.1 + 1 / 2) * Real.exp ((r.2 ^ 2 - tY r.1 r.2 ^ 2) / 2) *
    tS (r.1 * tY r.1 r.2 ^ 2) * (1 - r.1 ^ 2 * (3 * r.2 ^ 2 + 3) / 48) - 1) =O[near X] fun r => r.1 ^ 4 := by
  have fM : (fun r : ℝ × ℝ => tM (1 / r.1 + 1 / 2) - (1 + r.1 ^ 2 * (fun _ : ℝ => (1 / 16 : ℝ)) r.2)) =O[near X] fun r => r.1 ^ 4 := by
    refine IsBigO.of_bound 1 ?_
    have h1 : ∀ᶠ r in near X, r.1 < 1 := (near_a0 X).eventually_lt_const one_pos
    filter_upwards [near_pos X, h1] with r h0 h1
    rw [one_mul, Real.norm_eq_abs, Real.norm_eq_abs, abs_of_pos (pow_pos h0 4), mul_one_div]
    exact tM_near h0 h1.le
  -- the exponential
  have fE : (fun r : ℝ × ℝ => Real.exp ((r.2 ^ 2 - tY r.1 r.2 ^ 2) / 2) - (1 + r.1 ^ 2 * (fun x : ℝ => x ^ 2 * (x ^ 2 + 3) / 48) r.2)) =O[near X] fun r => r.1 ^ 4 := by
    set u : ℝ × ℝ → ℝ := fun r => (r.2 ^ 2 - tY r.1 r.2 ^ 2) / 2 with hu
    have e : ∀ r, u r - r.1 ^ 2 * (r.2 ^ 2 * (r.2 ^ 2 + 3) / 48) = r.1 ^ 4 * (-(r.2 ^ 2 * (r.2 ^ 2 + 3) ^ 2 / (2 * 48 ^ 2))) := fun r => by
      simp only [hu, tY]; ring
    have h1 : (fun r => u r - r.1 ^ 2 * (r.2 ^ 2 * (r.2 ^ 2 + 3) / 48)) =O[near X] fun r => r.1 ^ 4 := by
      simp only [e]
      exact ((isBigO_refl _ _).mul (near_poly X (g := fun x => -(x ^ 2 * (x ^ 2 + 3) ^ 2 / (2 * 48 ^ 2))) (by fun_prop))).congr_right fun r => by ring
    have h2 : u =O[near X] fun r => r.1 ^ 2 := by
      have := ((isBigO_refl (fun r : ℝ × ℝ => r.1 ^ 2) (near X)).mul (near_poly X (g := fun x => x ^ 2 * (x ^ 2 + 3) / 48) (by fun_prop)))
      exact ((h1.trans (near_pow X (by norm_num))).add (this.congr_right fun r => by ring)).congr_left fun r => by ring
    have hu0 : Tendsto u (near X) (𝓝 0) := h2.trans_tendsto (by simpa using (near_a0 X).pow 2)
    have h3 := ((Real.exp_sub_sum_range_isBigO_pow 2).comp_tendsto hu0).trans ((h2.pow 2).congr_right fun r => by ring : _ =O[near X] fun r => r.1 ^ 4)
    refine (h3.add h1).congr_left fun r => ?_
    simp only [Function.comp_apply, Finset.sum_range_succ, Finset.sum_range_zero, Nat.factorial]
    push_cast
    ring
  have fS : (fun r : ℝ × ℝ => tS (r.1 * tY r.1 r.2 ^ 2) - (1 + r.1 ^ 2 * (fun x : ℝ => -(x ^ 4 / 48)) r.2)) =O[near X] fun r => r.1 ^ 4 := by
    set z : ℝ × ℝ → ℝ := fun r => r.1 * tY r.1 r.2 ^ 2 with hz
    have hY : (fun r : ℝ × ℝ => tY r.1 r.2) =O[near X] fun _ => (1 : ℝ) := by
      have h1 := (near_poly X continuous_id)
      have h2 := (near_poly X (g := fun x => x * (x ^ 2 + 3) / 48) (by fun_prop))
      have h3 : (fun r : ℝ × ℝ => r.1 ^ 2) =O[near X] fun _ => (1 : ℝ) := ((near_a0 X).pow 2).isBigO_one ℝ
      refine (h1.sub ((h3.mul h2).congr_right fun _ => by norm_num)).congr_left fun r => ?_
      rw [tY, id]; ring
    have hz1 : z =O[near X] fun r => r.1 :=
      ((isBigO_refl (fun r : ℝ × ℝ => r.1) (near X)).mul (hY.pow 2)).congr_right fun r => by ring
    have hz0 : Tendsto z (near X) (𝓝[>] 0) := by
      refine tendsto_nhdsWithin_iff.2 ⟨hz1.trans_tendsto (near_a0 X), ?_⟩
      have hg : Tendsto (fun r : ℝ × ℝ => r.1 ^ 2 * (r.2 ^ 2 + 3) / 48) (near X) (𝓝 0) := by
        have h2 := (near_poly X (g := fun x => (x ^ 2 + 3) / 48) (by fun_prop))
        have := ((isBigO_refl (fun r : ℝ × ℝ => r.1 ^ 2) (near X)).mul h2).trans_tendsto (by simpa using (near_a0 X).pow 2)
        exact this.congr fun r => by ring
      filter_upwards [near_pos X, near_x X, hg.eventually_lt_const one_pos] with r h0 h1 h2
      have : 0 < tY r.1 r.2 := mul_pos h1.1 (by linarith)
      exact mul_pos h0 (pow_pos this 2)
    have h1 := (tS_near.comp_tendsto hz0).trans ((hz1.pow 4) : _ =O[near X] fun r => r.1 ^ 4)
    have h2 : (fun r => z r ^ 2 / 48 - r.1 ^ 2 * (r.2 ^ 4 / 48)) =O[near X] fun r => r.1 ^ 4 := by
      have e : ∀ r, z r ^ 2 / 48 - r.1 ^ 2 * (r.2 ^ 4 / 48) = r.1 ^ 4 * ((tY r.1 r.2 + r.2) * (tY r.1 r.2 ^ 2 + r.2 ^ 2) * (-(r.2 * (r.2 ^ 2 + 3) / 48)) / 48) := fun r => by
        simp only [hz, tY]; ring
      simp only [e]
      have q1 := near_poly X continuous_id
      have q2 := near_poly X (g := fun x => -(x * (x ^ 2 + 3) / 48) / 48) (by fun_prop)
      have := (isBigO_refl (fun r : ℝ × ℝ => r.1 ^ 4) (near X)).mul (((hY.add q1).mul ((hY.pow 2).add ((q1.pow 2)))).mul q2)
      refine this.congr (fun r => by simp only [id]; ring) fun r => by ring
    refine (h1.sub h2).congr_left fun r => ?_
    simp only [Function.comp_apply]; ring
  have fY : (fun r : ℝ × ℝ => 1 - r.1 ^ 2 * (3 * r.2 ^ 2 + 3) / 48 - (1 + r.1 ^ 2 * (fun x : ℝ => -((3 * x ^ 2 + 3) / 48)) r.2)) =O[near X] fun r => r.1 ^ 4 :=
    (isBigO_zero _ _).congr_left fun r => by ring
  have h1 := near_mul X (α := fun _ => 1 / 16) (β := fun x => x ^ 2 * (x ^ 2 + 3) / 48) (by fun_prop) (by fun_prop) fM fE
  have h2 := near_mul X (α := fun x => 1 / 16 + x ^ 2 * (x ^ 2 + 3) / 48) (β := fun x => -(x ^ 4 / 48)) (by fun_prop) (by fun_prop) h1 fS
  have h3 := near_mul X (α := fun x => 1 / 16 + x ^ 2 * (x ^ 2 + 3) / 48 + -(x ^ 4 / 48)) (β := fun x => -((3 * x ^ 2 + 3) / 48))
    (by fun_prop) (by fun_prop) h2 fY
  refine h3.congr_left fun r => ?_
  ring

/-- From the ratio of the densities to the distribution functions. -/
theorem centre_of {Y Y' : ℝ → ℝ → ℝ} (X : ℝ) (n : ℕ) (hY0 : ∀ a, Y a 0 = 0) (hYd : ∀ a x, HasDerivAt (Y a) (Y' a x) x)
    (hYp : ∀ᶠ r in near X, 0 < Y r.1 r.2)
    (hr : (fun r : ℝ × ℝ => tM (1 / r.1 + 1 / 2) * Real.exp ((r.2 ^ 2 - Y r.1 r.2 ^ 2) / 2) * tS (r.1 * Y r.1 r.2 ^ 2) * Y' r.1 r.2 - 1)
      =O[near X] fun r => r.1 ^ n) :
    ∃ C, ∀ᶠ a in 𝓝[>] 0, ∀ x ∈ Set.Icc 0 X, |tCdfCoded (1 / a + 1 / 2) (tT a (Y a x)) - Phi x| ≤ C * a ^ n := by
  obtain ⟨K, hK0, hK⟩ := hr.exists_pos
  have hb := eventually_prod_principal_iff.1 hK.bound
  have hp := eventually_prod_principal_iff.1 hYp
  refine ⟨K * X, ?_⟩
  filter_upwards [hb, hp, self_mem_nhdsWithin] with a h1 h2 ha x hx
  have ha : 0 < a := ha
  have hν0 : 0 < 1 / a + 1 / 2 := by positivity
  have hc := isCdf_tCoded hν0
  have hT0 : tT a (Y a 0) = 0 := by simp [tT, hY0]
  have hF0 : tCdfCoded (1 / a + 1 / 2) 0 = 1 / 2 := by
    have := Ord.tCdf_neg hν0 0
    rw [tCdfCoded_eq hν0]
    rw [neg_zero] at this
    linarith
  have hP0 : Phi 0 = 1 / 2 := by have := Phi_neg 0; rw [neg_zero] at this; linarith
  have hK4 : 0 ≤ K * a ^ n := by positivity
  rcases hx.1.eq_or_lt with h0 | h0
  · rw [← h0, hT0, hF0, hP0, sub_self, abs_zero]
    have : 0 ≤ X := hx.1.trans hx.2
    positivity
  have hd : ∀ t ∈ Set.Ioo 0 x, HasDerivAt (fun t => tCdfCoded (1 / a + 1 / 2) (tT a (Y a t)) - Phi t) (normPdf 0 1 t *
      (tM (1 / a + 1 / 2) * Real.exp ((t ^ 2 - Y a t ^ 2) / 2) * tS (a * Y a t ^ 2) * Y' a t) - normPdf 0 1 t) t := by
    intro t ht
    exact (tT_deriv ha (hYd a t) (h2 t ⟨ht.1, ht.2.le.trans hx.2⟩)).sub (hasDerivAt_Phi t)
  have hcont : ContinuousOn (fun t => tCdfCoded (1 / a + 1 / 2) (tT a (Y a t)) - Phi t) (Set.Icc 0 x) := by
    have c1 : Continuous (tCdfCoded (1 / a + 1 / 2)) :=
      continuous_iff_continuousAt.2 fun t => (hc.hasDerivAt (continuous_tPdf hν0) t).continuousAt
    have c0 : Continuous (Y a) := continuous_iff_continuousAt.2 fun t => (hYd a t).continuousAt
    have c2 : Continuous (fun t => tT a (Y a t)) := by unfold tT; fun_prop
    have c3 : Continuous Phi := continuous_iff_continuousAt.2 fun t => (hasDerivAt_Phi t).continuousAt
    exact ((c1.comp c2).sub c3).continuousOn
  obtain ⟨t, ht, e⟩ := exists_hasDerivAt_eq_slope _ _ h0 hcont hd
  rw [hT0, hF0, hP0, sub_self, sub_zero, sub_zero, eq_div_iff h0.ne'] at e
  rw [← e, abs_mul, abs_of_pos h0]
  have hn0 : 0 ≤ normPdf 0 1 t := by rw [normPdf]; positivity
  have hn1 : normPdf 0 1 t ≤ 1 := by
    rw [normPdf]
    have : 1 ≤ √(2 * Real.pi) := Real.one_le_sqrt.2 (by have := Real.pi_gt_three; linarith)
    have h3 : 1 / (√(2 * Real.pi) * 1) ≤ 1 := by rw [mul_one, div_le_one (by linarith)]; exact this
    have h4 : Real.exp (-((t - 0) ^ 2) / (2 * 1 ^ 2)) ≤ 1 := Real.exp_le_one_iff.2 (by
      have := sq_nonneg (t - 0); rw [neg_div]; have : 0 ≤ (t - 0) ^ 2 / (2 * 1 ^ 2) := by positivity
      linarith)
    exact mul_le_one₀ h3 (Real.exp_pos _).le h4
  have hr := h1 t ⟨ht.1, ht.2.le.trans hx.2⟩
  rw [Real.norm_eq_abs, Real.norm_eq_abs, abs_of_pos (pow_pos ha n)] at hr
  rw [← mul_sub_one, abs_mul, abs_of_nonneg hn0]
  calc _ ≤ (1 * (K * a ^ n)) * X := by
        refine mul_le_mul (mul_le_mul hn1 hr (abs_nonneg _) zero_le_one) hx.2 h0.le (by positivity)
    _ = _ := by ring

theorem tY_deriv (a x : ℝ) : HasDerivAt (tY a) (1 - a ^ 2 * (3 * x ^ 2 + 3) / 48) x := by
  have h1 := (hasDerivAt_id x).mul (((((hasDerivAt_pow 2 x).add_const 3).const_mul (a ^ 2)).div_const 48).const_sub 1)
  refine h1.congr_deriv ?_
  simp; ring

theorem tY_pos (X : ℝ) : ∀ᶠ r in near X, 0 < tY r.1 r.2 := by
  have hg : Tendsto (fun r : ℝ × ℝ => r.1 ^ 2 * (r.2 ^ 2 + 3) / 48) (near X) (𝓝 0) := by
    have h2 := (near_poly X (g := fun x => (x ^ 2 + 3) / 48) (by fun_prop))
    have := ((isBigO_refl (fun r : ℝ × ℝ => r.1 ^ 2) (near X)).mul h2).trans_tendsto (by simpa using (near_a0 X).pow 2)
    exact this.congr fun r => by ring
  filter_upwards [near_x X, hg.eventually_lt_const one_pos] with r h1 h2
  exact mul_pos h1.1 (by linarith)

/-- The transformed normal quantile has the right probability up to fourth order. -/
theorem centre_prob (X : ℝ) : ∃ C, ∀ᶠ a in 𝓝[>] 0, ∀ x ∈ Set.Icc 0 X, |tCdfCoded (1 / a + 1 / 2) (tT a (tY a x)) - Phi x| ≤ C * a ^ 4 :=
  centre_of (Y' := fun a x => 1 - a ^ 2 * (3 * x ^ 2 + 3) / 48) X 4 (fun a => by simp [tY]) tY_deriv (tY_pos X) (centre_ratio X)

/-! ### the code -/

/-- quant/qt.ipp:101-137 as real functions -/
noncomputable def hillC2t (ν x : ℝ) : ℝ :=
  hillBt (hillAt ν) + hillCt (hillAt ν) (hillBt (hillAt ν)) + x * (-2 + x * (-7 + x * (-5 + 0.05 * x * hillDt ν)))
noncomputable def hillYt (ν x : ℝ) : ℝ :=
  x * (1 + ((x * x * (36 + x * x * (6.3 + x * x * 0.4)) + 94.5) / hillC2t ν x - x * x - 3) / hillBt (hillAt ν))
noncomputable def hillPt (z : ℝ) : ℝ := z + z * z * (12 + z * (4 + z)) / 24

theorem hillPt_nonneg {z : ℝ} (h : 0 ≤ z) : 0 ≤ hillPt z := by rw [hillPt]; positivity

theorem hill_code1 {ν x : ℝ} (hν : 5 ≤ ν) (hb : 0.05 + hillAt ν < (hillDt ν * (2 * Phi x)) ^ (2 / ν)) (hc : hillC2t ν x ≠ 0)
    (hy : hillAt ν * hillYt ν x * hillYt ν x ≤ 0.1) :
    qt_int_main_iter (fin (2 * Phi x)) (fin ν) = fin √(ν * hillPt (hillAt ν * hillYt ν x * hillYt ν x)) := by
  have hν1 : 1 ≤ ν := by linarith
  obtain ⟨ha0, ha2⟩ := hillAt_mem hν1
  have hB := hillBt_ge ha0 ha2
  have hC := hillCt_ge ha0 ha2
  have hd := (hillDt_sq hν1).1
  have hν0 : 0 < ν := by linarith
  have hP := Phi_pos x
  have n1 : ν - 1 / 2 ≠ 0 := by linarith
  have n2 : hillAt ν * hillAt ν ≠ 0 := by positivity
  have n3 : hillBt (hillAt ν) ≠ 0 := by linarith
  have n4 : hillBt (hillAt ν) + hillCt (hillAt ν) (hillBt (hillAt ν)) ≠ 0 := by linarith
  have eA : qt_int_coef_a (fin ν) = fin (hillAt ν) := by simp only [qt_int_coef_a, ideal, ifin_div _ n1, hillAt]
  have eB : qt_int_coef_b (fin (hillAt ν)) = fin (hillBt (hillAt ν)) := by simp only [qt_int_coef_b, ideal, ifin_div _ n2, hillBt]
  have eC : qt_int_coef_c (fin (hillAt ν)) (fin (hillBt (hillAt ν))) = fin (hillCt (hillAt ν) (hillBt (hillAt ν))) := by
    simp only [qt_int_coef_c, ideal, ifin_div _ n3, hillCt]
  have eD : qt_int_coef_d (fin ν) (fin (hillAt ν)) (fin (hillBt (hillAt ν))) (fin (hillCt (hillAt ν) (hillBt (hillAt ν)))) = fin (hillDt ν) := by
    simp only [qt_int_coef_d, SQRTHALFPI, Ideal.sqrtHalfPi, ideal, isqrt ha0.le, ifin_div _ n4, ifin_div _ n3, hillDt, hillKt]
  have eY : qt_int_y_init (fin (2 * Phi x)) (fin ν) (fin (hillDt ν)) = fin ((hillDt ν * (2 * Phi x)) ^ (2 / ν)) := by
    simp only [qt_int_y_init, ideal, ifin_div _ hν0.ne', ipow _ (show 0 < hillDt ν * (2 * Phi x) by positivity)]
  have eQ : qnorm1 (half * fin (2 * Phi x)) = fin x := by
    have := qnorm_inv 0 one_pos x (Phi_pos _) (Phi_lt_one _)
    simp only [sub_zero, div_one] at this
    have e : 1 / 2 * (2 * Phi x) = Phi x := by ring
    simp only [ideal, e, qnorm1] at this ⊢
    rw [this]
  have eU : ∀ g : Fl, qt_int_coef_c_update (fin x) (fin ν) g = g := fun g => by
    have : ¬ fin ν < (5 : Fl) := by simp only [ideal, fin_lt_fin]; linarith
    rw [qt_int_coef_c_update, if_neg this]
  have e1 : qt_int_y_1 (fin x) (fin ν) (fin (hillAt ν)) (fin (hillBt (hillAt ν))) (fin (hillCt (hillAt ν) (hillBt (hillAt ν)))) (fin (hillDt ν)) =
      fin (hillPt (hillAt ν * hillYt ν x * hillYt ν x)) := by
    have f1 : hillBt (hillAt ν) + hillCt (hillAt ν) (hillBt (hillAt ν)) + x * (-2 + x * (-7 + x * (-5 + 0.05 * x * hillDt ν))) = hillC2t ν x := rfl
    have f2 : x * (1 + ((x * x * (36 + x * x * (6.3 + x * x * 0.4)) + 94.5) / hillC2t ν x - x * x - 3) / hillBt (hillAt ν)) = hillYt ν x := rfl
    simp only [qt_int_y_1, eU, qt_int_y_1_stage2, qt_int_y_1_stage4, ideal, f1, ifin_div _ hc, ifin_div _ n3, f2, gt_iff_lt, fin_lt_fin,
      if_neg (not_lt.2 hy), ifin_div _ (show (24 : ℝ) ≠ 0 by norm_num), hillPt]
  have e05 : lit 0.05 + fin (hillAt ν) = fin (0.05 + hillAt ν) := by simp only [ideal]
  simp only [qt_int_main_iter, eA, eB, eC, eD, eY, qt_int_choose, e05, gt_iff_lt, fin_lt_fin, if_pos hb, eQ, e1]
  have hz : 0 ≤ hillAt ν * hillYt ν x * hillYt ν x := by rw [mul_assoc]; exact mul_nonneg ha0.le (mul_self_nonneg _)
  rw [ifin_mul, isqrt (mul_nonneg hν0.le (hillPt_nonneg hz))]

/-! ### as the degrees of freedom grow -/

theorem hillAt_tendsto : Tendsto hillAt atTop (𝓝[>] 0) := by
  refine tendsto_nhdsWithin_iff.2 ⟨?_, ?_⟩
  · have : Tendsto (fun ν : ℝ => (ν - 1 / 2)⁻¹) atTop (𝓝 0) := tendsto_inv_atTop_zero.comp (tendsto_atTop_add_const_right _ _ tendsto_id)
    exact this.congr fun ν => by rw [hillAt, one_div (ν - 1 / 2)]
  · filter_upwards [eventually_ge_atTop 1] with ν hν using (hillAt_mem hν).1

theorem hillAt_mul : Tendsto (fun ν => ν * hillAt ν) atTop (𝓝 1) := by
  have := ((hillAt_tendsto.mono_right nhdsWithin_le_nhds).div_const 2).const_add 1
  simp only [zero_div, add_zero] at this
  refine this.congr' ?_
  filter_upwards [eventually_ge_atTop 1] with ν hν
  have : ν - 1 / 2 ≠ 0 := by linarith
  rw [hillAt, eq_comm, mul_one_div, div_eq_iff this, add_mul, div_div, one_div_mul_eq_div, div_mul_cancel_left₀ this]
  ring

/-- the correction in the denominator is of lower order than `b` -/
theorem hillC2t_tendsto (x : ℝ) : Tendsto (fun ν => hillC2t ν x * hillAt ν ^ 2) atTop (𝓝 48) := by
  have ha : Tendsto hillAt atTop (𝓝 0) := hillAt_tendsto.mono_right nhdsWithin_le_nhds
  have hd : Tendsto (fun ν => hillDt ν * hillAt ν ^ 2) atTop (𝓝 0) := by
    have h0 : Tendsto (fun ν => 2 * (ν * hillAt ν) * hillAt ν) atTop (𝓝 (2 * 1 * 0)) := (hillAt_mul.const_mul 2).mul ha
    rw [mul_zero] at h0
    refine squeeze_zero' ?_ ?_ h0
    · filter_upwards [eventually_ge_atTop 1] with ν hν
      have := (hillDt_sq hν).1
      positivity
    · filter_upwards [eventually_ge_atTop 2] with ν hν
      obtain ⟨d0, -, d2⟩ := hillDt_sq (show 1 ≤ ν by linarith)
      have hd : hillDt ν ≤ 2 * ν := by
        refine le_of_sq_le_sq (d2.trans ?_) (by linarith)
        have h1 : ν ^ 2 / (ν - 1 / 2) ≤ ν ^ 2 := div_le_self (sq_nonneg ν) (by linarith)
        have := Real.pi_lt_four
        nlinarith [sq_nonneg ν, Real.pi_pos]
      calc hillDt ν * hillAt ν ^ 2 ≤ 2 * ν * hillAt ν ^ 2 := mul_le_mul_of_nonneg_right hd (sq_nonneg _)
        _ = _ := by ring
  have hc : Tendsto (fun ν => 48 + hillAt ν ^ 2 * (96.36 + hillAt ν * (-16 + hillAt ν * (-98 + 431.25 * hillAt ν ^ 3))) +
      (x * (-2 + x * (-7 + x * -5))) * hillAt ν ^ 2 + 0.05 * x ^ 4 * (hillDt ν * hillAt ν ^ 2)) atTop
      (𝓝 (48 + 0 ^ 2 * (96.36 + 0 * (-16 + 0 * (-98 + 431.25 * 0 ^ 3))) + (x * (-2 + x * (-7 + x * -5))) * 0 ^ 2 + 0.05 * x ^ 4 * 0)) := by
    refine Tendsto.add (Tendsto.add ?_ ((ha.pow 2).const_mul _)) (hd.const_mul _)
    refine Tendsto.const_add _ ((ha.pow 2).mul (Tendsto.const_add _ (ha.mul (Tendsto.const_add _ (ha.mul (Tendsto.const_add _ ((ha.pow 3).const_mul _)))))))
  rw [show (48 + 0 ^ 2 * (96.36 + 0 * (-16 + 0 * (-98 + 431.25 * 0 ^ 3))) + (x * (-2 + x * (-7 + x * -5))) * 0 ^ 2 + 0.05 * x ^ 4 * 0 : ℝ) = 48 by ring] at hc
  refine hc.congr' ?_
  filter_upwards [eventually_ge_atTop 1] with ν hν
  have a0 := (hillAt_mem hν).1
  have e : hillCt (hillAt ν) (hillBt (hillAt ν)) = 96.36 + hillAt ν * (-16 + hillAt ν * (-98 + 431.25 * hillAt ν ^ 3)) := by
    rw [hillCt, hillBt]; field_simp; ring
  have eb : hillBt (hillAt ν) * hillAt ν ^ 2 = 48 := by rw [hillBt]; field_simp
  rw [hillC2t, e, add_mul, add_mul, eb]
  ring

/-- Hill's transformation agrees with its second order up to the fourth. -/
theorem hillYt_near (x : ℝ) : (fun ν => hillYt ν x - tY (hillAt ν) x) =O[atTop] fun ν => hillAt ν ^ 4 := by
  set q := x * x * (36 + x * x * (6.3 + x * x * 0.4)) + 94.5 with hq
  have h1 : (fun ν => x * (q / (hillC2t ν x * hillAt ν ^ 2) / 48)) =O[atTop] fun _ => (1 : ℝ) :=
    ((((tendsto_const_nhds (x := q)).div (hillC2t_tendsto x) (by norm_num)).div_const 48).const_mul x).isBigO_one ℝ
  have h2 := (isBigO_refl (fun ν => hillAt ν ^ 4) atTop).mul h1
  refine h2.congr' ?_ (.of_forall fun ν => by ring)
  filter_upwards [eventually_ge_atTop 1, (hillC2t_tendsto x).eventually_const_lt (show (0 : ℝ) < 48 by norm_num)] with ν hν hc
  have a0 := (hillAt_mem hν).1
  have hc : hillC2t ν x ≠ 0 := fun h => by rw [h, zero_mul] at hc; exact lt_irrefl _ hc
  rw [hillYt, ← hq, tY, hillBt]
  field_simp
  ring

theorem tY_tendsto (x : ℝ) : Tendsto (fun ν => tY (hillAt ν) x) atTop (𝓝 x) := by
  have ha : Tendsto hillAt atTop (𝓝 0) := hillAt_tendsto.mono_right nhdsWithin_le_nhds
  have : Tendsto (fun a => tY a x) (𝓝 0) (𝓝 (tY 0 x)) := (by unfold tY; fun_prop : Continuous fun a => tY a x).tendsto 0
  rw [show tY 0 x = x by rw [tY]; ring] at this
  exact this.comp ha

theorem hillYt_tendsto (x : ℝ) : Tendsto (fun ν => hillYt ν x) atTop (𝓝 x) := by
  have ha : Tendsto (fun ν => hillAt ν ^ 4) atTop (𝓝 0) := by
    simpa using (hillAt_tendsto.mono_right nhdsWithin_le_nhds).pow 4
  have := ((hillYt_near x).trans_tendsto ha).add (tY_tendsto x)
  rw [zero_add] at this
  exact this.congr fun ν => by ring

theorem hill_z_tendsto (x : ℝ) : Tendsto (fun ν => hillAt ν * hillYt ν x * hillYt ν x) atTop (𝓝 0) := by
  have := ((hillAt_tendsto.mono_right nhdsWithin_le_nhds).mul (hillYt_tendsto x)).mul (hillYt_tendsto x)
  simpa using this

/-- from some number of degrees of freedom on the code takes the branch of the normal quantile -/
theorem hill_centre (x : ℝ) : ∀ᶠ ν in atTop,
    qt_int_main_iter (fin (2 * Phi x)) (fin ν) = fin √(ν * hillPt (hillAt ν * hillYt ν x * hillYt ν x)) := by
  have ha : Tendsto hillAt atTop (𝓝 0) := hillAt_tendsto.mono_right nhdsWithin_le_nhds
  have hP := Phi_pos x
  have hp : Tendsto (fun ν : ℝ => Phi x ^ (2 / ν)) atTop (𝓝 1) := by
    have h1 : Tendsto (fun ν : ℝ => 2 / ν) atTop (𝓝 0) := tendsto_const_nhds.div_atTop tendsto_id
    have := (tendsto_const_nhds (x := Phi x)).rpow h1 (Or.inl hP.ne')
    rwa [Real.rpow_zero] at this
  have hz := hill_z_tendsto x
  filter_upwards [eventually_ge_atTop 5, hp.eventually_const_lt (show (1 / 2 : ℝ) < 1 by norm_num), ha.eventually_lt_const (show (0 : ℝ) < 1 / 4 by norm_num),
    (hillC2t_tendsto x).eventually_const_lt (show (0 : ℝ) < 48 by norm_num), hz.eventually_lt_const (show (0 : ℝ) < 0.1 by norm_num)] with ν h5 hpν haν hcν hzν
  have hc : hillC2t ν x ≠ 0 := fun h => by rw [h, zero_mul] at hcν; exact lt_irrefl _ hcν
  refine hill_code1 h5 ?_ hc hzν.le
  obtain ⟨d0, d1, -⟩ := hillDt_sq (show 1 ≤ ν by linarith)
  have hd : 1 / 2 ≤ hillDt ν := by
    refine le_of_sq_le_sq (le_trans ?_ d1) d0.le
    have h1 : 1 ≤ ν ^ 2 / (ν - 1 / 2) := by rw [le_div_iff₀ (by linarith)]; nlinarith
    have := Real.pi_gt_three
    nlinarith
  have : Phi x ^ (2 / ν) ≤ (hillDt ν * (2 * Phi x)) ^ (2 / ν) :=
    Real.rpow_le_rpow hP.le (by nlinarith) (by positivity)
  norm_num at *
  linarith

/-- on which side of 0 the code puts the value -/
noncomputable def hillW (x ν : ℝ) : ℝ :=
  if Phi x < 1 / 2 then -√(ν * hillPt (hillAt ν * hillYt ν x * hillYt ν x)) else √(ν * hillPt (hillAt ν * hillYt ν x * hillYt ν x))

theorem qt_centre (x : ℝ) : ∀ᶠ ν in atTop, qt (fin (Phi x)) (fin ν) = fin (hillW x ν) := by
  filter_upwards [hill_centre x, eventually_ge_atTop 5] with ν e h5
  have h0 := Phi_pos x
  have h1 := Phi_lt_one x
  have e1 : ν ≠ 1 := by linarith
  have e2 : ν ≠ 2 := by linarith
  simp only [qt, t_ok, prob_val_ok, ideal, qt_int_main, fin_feq_fin, h0.ne', h1.ne, gt_iff_lt, fin_lt_fin,
      not_lt.2 h0.le, not_lt.2 h1.le, eps, not_lt.2 (eps_le_one.trans (show 1 ≤ ν by linarith)), e1, e2, e]
  by_cases hp : Phi x < 1 / 2
  · have : Phi x < 2⁻¹ := by rwa [← one_div]
    simp [this, hillW]
  · have : ¬ Phi x < 2⁻¹ := by rwa [← one_div]
    simp [this, hillW]

theorem hillW_tendsto (x : ℝ) : Tendsto (hillW x) atTop (𝓝 x) := by
  have hz := hill_z_tendsto x
  have hP : Tendsto (fun ν => ν * hillPt (hillAt ν * hillYt ν x * hillYt ν x)) atTop (𝓝 (x ^ 2)) := by
    have h2 := ((hillAt_mul.mul ((hillYt_tendsto x).pow 2)).mul ((((hz.mul (Tendsto.const_add 12 (hz.mul (Tendsto.const_add 4 hz))))).div_const 24).const_add 1))
    norm_num at h2
    refine h2.congr fun ν => ?_
    rw [hillPt]; ring
  have hS := hP.sqrt
  rw [Real.sqrt_sq_eq_abs] at hS
  have hhalf : Phi 0 = 1 / 2 := by have := Phi_neg 0; rw [neg_zero] at this; linarith
  unfold hillW
  by_cases hx : x < 0
  · have : Phi x < 1 / 2 := by rw [← hhalf]; exact strictMono_Phi hx
    simp only [if_pos this]
    rw [abs_of_neg hx] at hS
    simpa using hS.neg
  · have : ¬ Phi x < 1 / 2 := by rw [← hhalf]; exact not_lt.2 (strictMono_Phi.monotone (not_lt.1 hx))
    simp only [if_neg this]
    rwa [abs_of_nonneg (not_lt.1 hx)] at hS

/-- The value for infinitely many degrees of freedom is the limit of the values for finitely many. -/
theorem C43_qt_dof {p : ℝ} (h0 : 0 < p) (h1 : p < 1) : LimTop (fun ν => qt (fin p) ν) := by
  obtain ⟨x, rfl⟩ : ∃ x, Phi x = p := by
    have := (isCdf_norm 0 one_pos).exists_eq h0 h1
    simpa using this
  have e : qt (fin (Phi x)) pinf = fin x := by
    have := qnorm_inv 0 one_pos x (Phi_pos _) (Phi_lt_one _)
    simp only [sub_zero, div_one] at this
    simp only [qt, t_ok, prob_val_ok, ideal, fin_feq_fin, h0.ne', h1.ne, gt_iff_lt, fin_lt_fin, not_lt.2 h0.le, not_lt.2 h1.le, eps] at this ⊢
    simpa using this
  rw [LimTop, e]
  exact ⟨hillW x, qt_centre x, hillW_tendsto x⟩

/-! ### the order of the error -/

theorem tPdf_le_one {ν : ℝ} (h : 0 < ν) (t : ℝ) : tPdf ν t ≤ 1 := by
  have h1 := Real.Gamma_pos_of_pos (half_pos h)
  have h2 := Real.Gamma_pos_of_pos (show 0 < (ν + 1) / 2 by linarith)
  have b1 := Gamma_half_le (half_pos h)
  rw [show ν / 2 + 1 / 2 = (ν + 1) / 2 by ring] at b1
  have hs : 0 < √(ν * Real.pi) := Real.sqrt_pos.2 (mul_pos h Real.pi_pos)
  have hle : √(ν / 2) ≤ √(ν * Real.pi) := Real.sqrt_le_sqrt (by nlinarith [Real.pi_gt_three])
  have hb : (1 + t ^ 2 / ν) ^ (-((ν + 1) / 2)) ≤ 1 :=
    Real.rpow_le_one_of_one_le_of_nonpos (by have : 0 ≤ t ^ 2 / ν := by positivity
                                             linarith) (by linarith)
  rw [tPdf]
  refine mul_le_one₀ ?_ (Real.rpow_nonneg (by positivity) _) hb
  rw [div_le_one (by positivity)]
  exact b1.trans (mul_le_mul_of_nonneg_right hle h1.le)

theorem tCdfCoded_lip {ν : ℝ} (h : 0 < ν) (s t : ℝ) : |tCdfCoded ν s - tCdfCoded ν t| ≤ |s - t| := by
  have := Convex.norm_image_sub_le_of_norm_deriv_le (f := tCdfCoded ν) (C := 1) (s := Set.univ) (x := t) (y := s)
    (fun x _ => ((isCdf_tCoded h).hasDerivAt (continuous_tPdf h) x).differentiableAt)
    (fun x _ => by
      rw [((isCdf_tCoded h).hasDerivAt (continuous_tPdf h) x).deriv, Real.norm_eq_abs, abs_of_pos (tPdf_pos h x)]
      exact tPdf_le_one h x) convex_univ trivial trivial
  simpa using this

theorem hillPt_exp : (fun z : ℝ => hillPt z - (Real.exp z - 1)) =O[𝓝 0] fun z => z ^ 5 := by
  refine ((Real.exp_sub_sum_range_isBigO_pow 5).neg_left).congr_left fun z => ?_
  simp only [Finset.sum_range_succ, Finset.sum_range_zero, Nat.factorial, hillPt]
  push_cast
  ring

theorem hill_sqrt_near {x : ℝ} (hx : x ≠ 0) :
    (fun ν => √(ν * hillPt (hillAt ν * hillYt ν x * hillYt ν x)) - tT (hillAt ν) (tY (hillAt ν) |x|)) =O[atTop] fun ν => hillAt ν ^ 4 := by
  have ha : Tendsto hillAt atTop (𝓝 0) := hillAt_tendsto.mono_right nhdsWithin_le_nhds
  set Z : ℝ → ℝ := fun ν => hillAt ν * hillYt ν x * hillYt ν x with hZ
  set V : ℝ → ℝ := fun ν => hillAt ν * tY (hillAt ν) x ^ 2 with hV
  have hZ0 : Tendsto Z atTop (𝓝 0) := hill_z_tendsto x
  have hV1 : V =O[atTop] hillAt :=
    ((isBigO_refl hillAt atTop).mul (((tY_tendsto x).pow 2).isBigO_one ℝ)).congr_right fun ν => by ring
  have hV0 : Tendsto V atTop (𝓝 0) := hV1.trans_tendsto ha
  have hZV : (fun ν => Z ν - V ν) =O[atTop] fun ν => hillAt ν ^ 5 := by
    have h1 := ((isBigO_refl hillAt atTop).mul (hillYt_near x)).mul (((hillYt_tendsto x).add (tY_tendsto x)).isBigO_one ℝ)
    refine h1.congr (fun ν => ?_) fun ν => by ring
    simp only [hZ, hV]; ring
  have hPP : (fun ν => hillPt (Z ν) - hillPt (V ν)) =O[atTop] fun ν => hillAt ν ^ 5 := by
    have hb : (fun ν => 1 + (12 * (Z ν + V ν) + 4 * (Z ν ^ 2 + Z ν * V ν + V ν ^ 2) + (Z ν + V ν) * (Z ν ^ 2 + V ν ^ 2)) / 24) =O[atTop] fun _ => (1 : ℝ) := by
      have h1 := hZ0.add hV0
      have h2 := ((hZ0.pow 2).add (hZ0.mul hV0)).add (hV0.pow 2)
      have h3 := h1.mul ((hZ0.pow 2).add (hV0.pow 2))
      exact (((((h1.const_mul 12).add (h2.const_mul 4)).add h3).div_const 24).const_add 1).isBigO_one ℝ
    refine (hZV.mul hb).congr (fun ν => ?_) fun ν => by ring
    rw [hillPt, hillPt]; ring
  have hPE : (fun ν => hillPt (V ν) - (Real.exp (V ν) - 1)) =O[atTop] fun ν => hillAt ν ^ 5 :=
    (hillPt_exp.comp_tendsto hV0).trans (hV1.pow 5)
  have hD : (fun ν => ν * hillPt (Z ν) - ν * (Real.exp (V ν) - 1)) =O[atTop] fun ν => hillAt ν ^ 4 := by
    have hna : (fun ν : ℝ => ν * hillAt ν) =O[atTop] fun _ => (1 : ℝ) := hillAt_mul.isBigO_one ℝ
    have h1 := (isBigO_refl (fun ν : ℝ => ν) atTop).mul (hPP.add hPE)
    have h2 : (fun ν => ν * hillAt ν ^ 5) =O[atTop] fun ν => hillAt ν ^ 4 :=
      (hna.mul (isBigO_refl (fun ν => hillAt ν ^ 4) atTop)).congr (fun ν => by ring) fun ν => by ring
    exact (h1.trans h2).congr_left fun ν => by ring
  have hE : ∀ᶠ ν in atTop, tT (hillAt ν) (tY (hillAt ν) |x|) = √(ν * (Real.exp (V ν) - 1)) := by
    filter_upwards [eventually_ge_atTop 1] with ν hν
    have e1 : 1 / hillAt ν + 1 / 2 = ν := by rw [hillAt, one_div_one_div]; ring
    have e2 : tY (hillAt ν) |x| ^ 2 = tY (hillAt ν) x ^ 2 := by rw [tY, tY, mul_pow, mul_pow, sq_abs]
    rw [tT, e1, e2]
  have hA : Tendsto (fun ν => ν * hillPt (Z ν)) atTop (𝓝 (x ^ 2)) := by
    have h2 := ((hillAt_mul.mul ((hillYt_tendsto x).pow 2)).mul ((((hZ0.mul (Tendsto.const_add 12 (hZ0.mul (Tendsto.const_add 4 hZ0))))).div_const 24).const_add 1))
    norm_num at h2
    refine h2.congr fun ν => ?_
    rw [hillPt]; simp only [hZ]; ring
  have hx2 : 0 < x ^ 2 := by positivity
  have hden : (fun ν => (√(ν * hillPt (Z ν)) + √(ν * (Real.exp (V ν) - 1)))⁻¹) =O[atTop] fun _ => (1 : ℝ) := by
    refine IsBigO.of_bound (√(x ^ 2 / 2))⁻¹ ?_
    filter_upwards [hA.eventually_const_lt (show x ^ 2 / 2 < x ^ 2 by linarith)] with ν h
    have h1 : √(x ^ 2 / 2) ≤ √(ν * hillPt (Z ν)) := Real.sqrt_le_sqrt h.le
    have h0 : 0 < √(x ^ 2 / 2) := Real.sqrt_pos.2 (by positivity)
    have h2 := Real.sqrt_nonneg (ν * (Real.exp (V ν) - 1))
    rw [Real.norm_eq_abs, norm_one, mul_one, abs_of_nonneg (by positivity)]
    exact inv_anti₀ h0 (by linarith)
  refine (hD.mul hden).congr' ?_ (.of_forall fun ν => by ring)
  filter_upwards [hE, hA.eventually_const_lt hx2, eventually_ge_atTop 1] with ν e hpos hν
  have a0 := (hillAt_mem hν).1
  have hz0 : 0 ≤ ν * hillPt (Z ν) := hpos.le
  have hv0 : 0 ≤ ν * (Real.exp (V ν) - 1) := by
    have : 0 ≤ V ν := by simp only [hV]; positivity
    have := Real.add_one_le_exp (V ν)
    exact mul_nonneg (by linarith) (by linarith)
  have hs := Real.sqrt_pos.2 hpos
  have hs2 := Real.sqrt_nonneg (ν * (Real.exp (V ν) - 1))
  rw [e, mul_inv_eq_iff_eq_mul₀ (by linarith)]
  nlinarith [Real.mul_self_sqrt hz0, Real.mul_self_sqrt hv0]

/-- At a fixed probability the value of the code has that probability up to an error of the order of `dof^-4`: on either
side of 1/2, whatever the probability. -/
theorem C63_qt_order {p : ℝ} (h0 : 0 < p) (h1 : p < 1) :
    ∃ C : ℝ, ∀ᶠ ν in atTop, ∃ w, qt (fin p) (fin ν) = fin w ∧ |(∫ t in Set.Iic w, tPdf ν t) - p| ≤ C / ν ^ 4 := by
  obtain ⟨x, rfl⟩ : ∃ x, Phi x = p := by
    have := (isCdf_norm 0 one_pos).exists_eq h0 h1
    simpa using this
  have hhalf : Phi 0 = 1 / 2 := by have := Phi_neg 0; rw [neg_zero] at this; linarith
  obtain ⟨K, hK⟩ := centre_prob |x|
  have hK := hillAt_tendsto.eventually hK
  have core : ∃ C : ℝ, ∀ᶠ ν in atTop, |tCdfCoded ν (hillW x ν) - Phi x| ≤ C * hillAt ν ^ 4 := by
    rcases eq_or_ne x 0 with hx | hx
    · refine ⟨0, ?_⟩
      filter_upwards [eventually_ge_atTop 1] with ν hν
      have hν0 : 0 < ν := by linarith
      have e : hillW x ν = 0 := by simp [hillW, hx, hillYt, hillPt]
      have hF0 : tCdfCoded ν 0 = 1 / 2 := by
        have := Ord.tCdf_neg hν0 0
        rw [tCdfCoded_eq hν0]
        rw [neg_zero] at this
        linarith
      rw [e, hF0, hx, hhalf]; simp
    · obtain ⟨M, hM⟩ := (hill_sqrt_near hx).bound
      refine ⟨M + K, ?_⟩
      filter_upwards [hM, hK, eventually_ge_atTop 1] with ν h2 h3 hν
      have hν0 : 0 < ν := by linarith
      have a0 := (hillAt_mem hν).1
      have e1 : 1 / hillAt ν + 1 / 2 = ν := by rw [hillAt, one_div_one_div]; ring
      have h3 := h3 |x| ⟨abs_nonneg x, le_rfl⟩
      rw [e1] at h3
      rw [Real.norm_eq_abs, Real.norm_eq_abs, abs_of_pos (pow_pos a0 4)] at h2
      set s := √(ν * hillPt (hillAt ν * hillYt ν x * hillYt ν x)) with hs
      have h4 : |tCdfCoded ν s - Phi (abs x)| ≤ (M + K) * hillAt ν ^ 4 := by
        have := abs_sub_le (tCdfCoded ν s) (tCdfCoded ν (tT (hillAt ν) (tY (hillAt ν) |x|))) (Phi |x|)
        have := tCdfCoded_lip hν0 s (tT (hillAt ν) (tY (hillAt ν) |x|))
        linarith
      rcases lt_or_gt_of_ne hx with hneg | hpos
      · have hp : Phi x < 1 / 2 := by rw [← hhalf]; exact strictMono_Phi hneg
        have e2 : hillW x ν = -s := by rw [hillW, if_pos hp]
        have e3 : tCdfCoded ν (-s) = 1 - tCdfCoded ν s := by rw [tCdfCoded_eq hν0, tCdfCoded_eq hν0, Ord.tCdf_neg hν0]
        rw [abs_of_neg hneg, Phi_neg] at h4
        rw [e2, e3, show 1 - tCdfCoded ν s - Phi x = -(tCdfCoded ν s - (1 - Phi x)) by ring, abs_neg]
        exact h4
      · have hp : ¬ Phi x < 1 / 2 := by rw [← hhalf]; exact not_lt.2 (strictMono_Phi.monotone hpos.le)
        have e2 : hillW x ν = s := by rw [hillW, if_neg hp]
        rw [abs_of_pos hpos] at h4
        rwa [e2]
  obtain ⟨C, hC⟩ := core
  refine ⟨|C| * 16, ?_⟩
  filter_upwards [hC, qt_centre x, eventually_ge_atTop 1] with ν h2 h3 hν
  have hν0 : 0 < ν := by linarith
  refine ⟨_, h3, ?_⟩
  rw [(isCdf_tCoded hν0).running]
  have a0 := (hillAt_mem hν).1
  have ha : hillAt ν ≤ 2 / ν := by
    rw [hillAt, div_le_div_iff₀ (by linarith) hν0]; linarith
  have h4 : hillAt ν ^ 4 ≤ (2 / ν) ^ 4 := pow_le_pow_left₀ a0.le ha 4
  calc _ ≤ C * hillAt ν ^ 4 := h2
    _ ≤ |C| * (2 / ν) ^ 4 := mul_le_mul (le_abs_self C) h4 (by positivity) (abs_nonneg C)
    _ = _ := by rw [div_pow]; ring

theorem tPdf_ge {ν t : ℝ} (hν : 1 ≤ ν) : Real.exp (-t ^ 2) / 4 ≤ tPdf ν t := by
  have h : 0 < ν := by linarith
  have h1 := Real.Gamma_pos_of_pos (half_pos h)
  have h2 := Real.Gamma_pos_of_pos (show 0 < (ν + 1) / 2 by linarith)
  obtain ⟨d0, -, d2⟩ := tD_sq h
  have h3 := Real.sqrt_pos.2 h
  have h4 := Real.sqrt_pos.2 Real.pi_pos
  have hk : 1 / 4 ≤ Real.Gamma ((ν + 1) / 2) / (√(ν * Real.pi) * Real.Gamma (ν / 2)) := by
    have e : Real.Gamma ((ν + 1) / 2) / (√(ν * Real.pi) * Real.Gamma (ν / 2)) = √ν / (2 * tD ν) := by
      rw [tD_eq h, Real.sqrt_mul h.le]
      have := Real.mul_self_sqrt h.le
      field_simp
      nlinarith
    have hd : tD ν ≤ 2 * √ν := by
      refine le_of_sq_le_sq (d2.trans ?_) (by positivity)
      rw [mul_pow, Real.sq_sqrt h.le]
      nlinarith [Real.pi_lt_four, Real.pi_pos]
    rw [e, le_div_iff₀ (by positivity)]
    linarith
  have hr : Real.exp (-t ^ 2) ≤ (1 + t ^ 2 / ν) ^ (-((ν + 1) / 2)) := by
    have hp : 0 < 1 + t ^ 2 / ν := by positivity
    rw [Real.rpow_def_of_pos hp, Real.exp_le_exp]
    have hl := Real.log_le_sub_one_of_pos hp
    have h0 : 0 ≤ t ^ 2 / ν := by positivity
    have e1 : t ^ 2 / ν * ((ν + 1) / 2) ≤ t ^ 2 := by
      rw [div_mul_eq_mul_div, div_le_iff₀ h]
      nlinarith [sq_nonneg t]
    nlinarith [mul_le_mul_of_nonneg_right hl (show 0 ≤ (ν + 1) / 2 by linarith)]
  rw [tPdf]
  calc Real.exp (-t ^ 2) / 4 = 1 / 4 * Real.exp (-t ^ 2) := by ring
    _ ≤ _ := mul_le_mul hk hr (Real.exp_pos _).le (by positivity)

/-- So is the value itself. -/
theorem C63_qt_value {p : ℝ} (h0 : 0 < p) (h1 : p < 1) {q : ℝ → ℝ} (hq : ∀ᶠ ν in atTop, ∫ t in Set.Iic (q ν), tPdf ν t = p) :
    ∃ C : ℝ, ∀ᶠ ν in atTop, ∃ w, qt (fin p) (fin ν) = fin w ∧ |w - q ν| ≤ C / ν ^ 4 := by
  obtain ⟨C, hC⟩ := C63_qt_order h0 h1
  obtain ⟨x, rfl⟩ : ∃ x, Phi x = p := by
    have := (isCdf_norm 0 one_pos).exists_eq h0 h1
    simpa using this
  have b1 := (Lim.tCdf_dof (x - 1)).eventually_lt_const (strictMono_Phi (show x - 1 < x by linarith))
  have b2 := (Lim.tCdf_dof (x + 1)).eventually_const_lt (strictMono_Phi (show x < x + 1 by linarith))
  have b3 := (hillW_tendsto x).eventually_lt_const (show x < x + 1 by linarith)
  have b4 := (hillW_tendsto x).eventually_const_lt (show x - 1 < x by linarith)
  set B := |x| + 1
  refine ⟨C * (4 * Real.exp (B ^ 2)), ?_⟩
  filter_upwards [hC, hq, qt_centre x, b1, b2, b3, b4, eventually_ge_atTop 1] with ν ⟨w, e, hw⟩ hqν e' c1 c2 c3 c4 hν
  have hν0 : 0 < ν := by linarith
  have hc := isCdf_tCoded hν0
  have hww : w = hillW x ν := by rw [e] at e'; injection e'
  rw [hc.running] at hw hqν
  rw [tCdfCoded_eq hν0] at hqν
  have l1 : x - 1 < q ν := by
    by_contra h
    have := (isCdf_t hν0).mono (not_lt.1 h)
    linarith
  have l2 : q ν < x + 1 := by
    by_contra h
    have := (isCdf_t hν0).mono (not_lt.1 h)
    linarith
  rw [← tCdfCoded_eq hν0] at hqν
  refine ⟨w, e, ?_⟩
  have key : ∀ s t : ℝ, x - 1 < s → s < t → t < x + 1 → (t - s) * (Real.exp (-B ^ 2) / 4) ≤ tCdfCoded ν t - tCdfCoded ν s := fun s t hs hst ht => by
    obtain ⟨c, hcm, hcs⟩ := exists_hasDerivAt_eq_slope (tCdfCoded ν) (tPdf ν) hst
      (fun y _ => (hc.hasDerivAt (continuous_tPdf hν0) y).continuousAt.continuousWithinAt) (fun y _ => hc.hasDerivAt (continuous_tPdf hν0) y)
    have hcB : c ^ 2 ≤ B ^ 2 := by
      refine sq_le_sq.2 ?_
      rw [abs_of_nonneg (show 0 ≤ B by positivity)]
      have := le_abs_self x
      have := neg_abs_le x
      exact abs_le.2 ⟨by linarith [hcm.1], by linarith [hcm.2]⟩
    have h3 : Real.exp (-B ^ 2) / 4 ≤ tPdf ν c :=
      le_trans (by have := Real.exp_le_exp.2 (neg_le_neg hcB); linarith) (tPdf_ge hν)
    rw [hcs, le_div_iff₀ (by linarith)] at h3
    linarith
  have hab : |w - q ν| * (Real.exp (-B ^ 2) / 4) ≤ |tCdfCoded ν w - tCdfCoded ν (q ν)| := by
    rcases lt_trichotomy w (q ν) with h | h | h
    · rw [abs_sub_comm, abs_of_pos (by linarith), abs_sub_comm]
      exact (key _ _ (by linarith) h l2).trans (le_abs_self _)
    · simp [h]
    · rw [abs_of_pos (by linarith)]
      exact (key _ _ l1 h (by linarith)).trans (le_abs_self _)
  rw [hqν] at hab
  have hE : Real.exp (-B ^ 2) * Real.exp (B ^ 2) = 1 := by rw [← Real.exp_add]; simp
  have hEp := Real.exp_pos (B ^ 2)
  have h5 : |w - q ν| * (Real.exp (-B ^ 2) / 4) ≤ C / ν ^ 4 := hab.trans hw
  calc |w - q ν| = |w - q ν| * (Real.exp (-B ^ 2) / 4) * (4 * Real.exp (B ^ 2)) := by
        rw [show |w - q ν| * (Real.exp (-B ^ 2) / 4) * (4 * Real.exp (B ^ 2)) = |w - q ν| * (Real.exp (-B ^ 2) * Real.exp (B ^ 2)) by ring, hE, mul_one]
    _ ≤ C / ν ^ 4 * (4 * Real.exp (B ^ 2)) := mul_le_mul_of_nonneg_right h5 (by positivity)
    _ = _ := by ring

end Stats

namespace Stats.ExamplesC63
open Fl Spec
open scoped Stats.Exact

example := C63_qt_order (p := 1 / 40) (by norm_num) (by norm_num)
/-- quantiles exist -/
example : ∃ q : ℝ → ℝ, (∀ᶠ ν in atTop, ∫ t in Set.Iic (q ν), tPdf ν t = 39 / 40) ∧
    ∃ C : ℝ, ∀ᶠ ν in atTop, ∃ w, qt (fin (39 / 40)) (fin ν) = fin w ∧ |w - q ν| ≤ C / ν ^ 4 := by
  have hex : ∀ ν : ℝ, ∃ x : ℝ, 0 < ν → ∫ t in Set.Iic x, tPdf ν t = 39 / 40 := fun ν => by
    by_cases h : 0 < ν
    · obtain ⟨x, hx⟩ := (isCdf_tCoded h).exists_eq (u := 39 / 40) (by norm_num) (by norm_num)
      exact ⟨x, fun _ => by rw [(isCdf_tCoded h).running, hx]⟩
    · exact ⟨0, fun h' => absurd h' h⟩
  choose q hq using hex
  have hq' : ∀ᶠ ν in atTop, ∫ t in Set.Iic (q ν), tPdf ν t = 39 / 40 := (eventually_gt_atTop 0).mono hq
  exact ⟨q, hq', C63_qt_value (by norm_num) (by norm_num) hq'⟩
example := C43_qt_dof (p := 39 / 40) (by norm_num) (by norm_num)

end Stats.ExamplesC63

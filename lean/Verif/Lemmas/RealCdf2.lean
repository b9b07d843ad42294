import Verif.Lemmas.RealCdf

/-! Closed forms of the F, Student t and inverse Gaussian distribution functions. -/

open MeasureTheory Set Filter Topology Real

namespace Stats
open Spec

/-! ### F -/

noncomputable def fCdf (d₁ d₂ x : ℝ) : ℝ :=
  betaI (d₁ / 2) (d₂ / 2) (d₁ * x / d₂ / (1 + d₁ * x / d₂))

theorem div_one_add_mem {w : ℝ} (hw : 0 < w) : 0 < w / (1 + w) ∧ w / (1 + w) < 1 :=
  ⟨by positivity, by rw [div_lt_one (by linarith)]; linarith⟩

theorem isCdf_f {d₁ d₂ : ℝ} (h1 : 0 < d₁) (h2 : 0 < d₂) :
    IsCdf (fun x => if 0 < x then fCdf d₁ d₂ x else 0) (fPdf d₁ d₂) := by
  have ha : 0 < d₁ / 2 := half_pos h1
  have hb : 0 < d₂ / 2 := half_pos h2
  have hB := beta_pos ha hb
  have := isCdf_Ioi (G := fCdf d₁ d₂)
    (g := fun x => 1 / beta (d₁ / 2) (d₂ / 2) * (d₁ / d₂) ^ (d₁ / 2) * x ^ (d₁ / 2 - 1) *
    (1 + d₁ / d₂ * x) ^ (-((d₁ + d₂) / 2))) ?_ ?_ ?_ ?_
  · exact this
  · intro x hx
    have hw : 0 < d₁ * x / d₂ := by positivity
    have hw1 : 0 < 1 + d₁ * x / d₂ := by positivity
    obtain ⟨hz0, hz1⟩ := div_one_add_mem hw
    have e1 : HasDerivAt (fun x => d₁ * x / d₂) (d₁ / d₂) x := by
      simpa using ((hasDerivAt_id x).const_mul d₁).div_const d₂
    have e2 := e1.div (e1.const_add 1) hw1.ne'
    refine ((hasDerivAt_betaI ha hb hz0 hz1).comp x e2).congr_deriv ?_
    have e3 : 1 - d₁ * x / d₂ / (1 + d₁ * x / d₂) = (1 + d₁ * x / d₂)⁻¹ := by field_simp; ring
    have e4 : 1 + d₁ / d₂ * x = 1 + d₁ * x / d₂ := by ring
    have e5 : d₁ * x / d₂ = d₁ / d₂ * x := by ring
    rw [e3, e4]
    rw [Real.div_rpow hw.le hw1.le, Real.inv_rpow hw1.le]
    set W := 1 + d₁ * x / d₂ with hW
    have e6 : W ^ (-((d₁ + d₂) / 2)) = (W ^ (d₁ / 2 - 1))⁻¹ * (W ^ (d₂ / 2 - 1))⁻¹ * (W ^ 2)⁻¹ := by
      rw [← Real.rpow_neg hw1.le, ← Real.rpow_neg hw1.le, ← Real.rpow_natCast, ← Real.rpow_neg hw1.le,
        ← Real.rpow_add hw1, ← Real.rpow_add hw1]
      congr 1; push_cast; ring
    rw [e6, e5, Real.mul_rpow (by positivity) hx.le, Real.rpow_sub_one (show d₁ / d₂ ≠ 0 by positivity)]
    have e7 : d₁ / d₂ * W - d₁ / d₂ * x * (d₁ / d₂) = d₁ / d₂ := by rw [hW]; ring
    rw [e7]
    field_simp
  · intro x hx; positivity
  · have hc : ContinuousWithinAt (fCdf d₁ d₂) (Ioi 0) 0 := by
      have h3 := (continuousOn_betaI ha hb) (d₁ * 0 / d₂ / (1 + d₁ * 0 / d₂)) (by simp)
      refine ContinuousWithinAt.comp (f := fun x => d₁ * x / d₂ / (1 + d₁ * x / d₂)) (t := Icc 0 1) h3 ?_ ?_
      · apply ContinuousAt.continuousWithinAt
        apply ContinuousAt.div (by fun_prop) (by fun_prop); simp
      · intro x hx
        have hx : 0 < x := hx
        have := div_one_add_mem (show 0 < d₁ * x / d₂ by positivity)
        exact ⟨this.1.le, this.2.le⟩
    simpa [ContinuousWithinAt, fCdf] using hc
  · have h3 : Tendsto (fun x => d₁ * x / d₂ / (1 + d₁ * x / d₂)) atTop (𝓝[Icc 0 1] 1) := by
      apply tendsto_nhdsWithin_of_tendsto_nhds_of_eventually_within
      · have h4 : Tendsto (fun x => 1 + d₁ * x / d₂) atTop atTop :=
          tendsto_atTop_add_const_left _ _ ((tendsto_id.const_mul_atTop h1).atTop_div_const h2)
        have h5 := (tendsto_inv_atTop_zero.comp h4).const_sub 1
        rw [sub_zero] at h5
        refine h5.congr' ?_
        filter_upwards [Ioi_mem_atTop 0] with x hx
        have hx : 0 < x := hx
        have : 0 < d₁ * x / d₂ := by positivity
        simp only [Function.comp]
        field_simp; ring
      · filter_upwards [Ioi_mem_atTop 0] with x hx
        have hx : 0 < x := hx
        have := div_one_add_mem (show 0 < d₁ * x / d₂ by positivity)
        exact ⟨this.1.le, this.2.le⟩
    have h6 := (continuousOn_betaI ha hb) 1 (by simp)
    rw [ContinuousWithinAt, betaI_one ha hb] at h6
    exact h6.comp h3

/-! ### Student t -/

noncomputable def tTail (ν x : ℝ) : ℝ := betaI (ν / 2) (1 / 2) (ν / (ν + x ^ 2))
noncomputable def tCdf (ν x : ℝ) : ℝ := if 0 < x then 1 - tTail ν x / 2 else tTail ν x / 2

theorem tPdf_eq {ν : ℝ} (h : 0 < ν) (x : ℝ) :
    tPdf ν x = (1 + x ^ 2 / ν) ^ (-((ν + 1) / 2)) / (√ν * beta (ν / 2) (1 / 2)) := by
  have hG := Real.Gamma_pos_of_pos (half_pos h)
  have hG' := Real.Gamma_pos_of_pos (show 0 < (ν + 1) / 2 by linarith)
  have e : ν / 2 + 1 / 2 = (ν + 1) / 2 := by ring
  rw [tPdf, beta, e, Real.Gamma_one_half_eq, Real.sqrt_mul h.le]
  have := Real.sqrt_pos.2 h
  have := Real.sqrt_pos.2 Real.pi_pos
  field_simp

theorem tPdf_nonneg {ν : ℝ} (h : 0 < ν) (x : ℝ) : 0 ≤ tPdf ν x := by
  rw [tPdf_eq h]
  have := beta_pos (half_pos h) (show (0 : ℝ) < 1 / 2 by norm_num)
  positivity

theorem t_arg_mem {ν x : ℝ} (h : 0 < ν) : ν / (ν + x ^ 2) ∈ Icc (0 : ℝ) 1 :=
  ⟨by positivity, by rw [div_le_one (by positivity)]; nlinarith [sq_nonneg x]⟩

theorem hasDerivAt_tTail {ν x : ℝ} (h : 0 < ν) (hx : x ≠ 0) :
    HasDerivAt (tTail ν) (-(x / |x|) * 2 * tPdf ν x) x := by
  have hb : (0 : ℝ) < 1 / 2 := by norm_num
  have hB := beta_pos (half_pos h) hb
  have hx2 : 0 < x ^ 2 := by positivity
  have hs : 0 < ν + x ^ 2 := by positivity
  have hz0 : 0 < ν / (ν + x ^ 2) := by positivity
  have hz1 : ν / (ν + x ^ 2) < 1 := by rw [div_lt_one hs]; linarith
  have e1 : HasDerivAt (fun x => ν / (ν + x ^ 2)) (-(ν * (2 * x)) / (ν + x ^ 2) ^ 2) x := by
    have := (hasDerivAt_const x ν).div (((hasDerivAt_pow 2 x)).const_add ν) hs.ne'
    refine this.congr_deriv ?_
    simp
  refine ((hasDerivAt_betaI (half_pos h) hb hz0 hz1).comp x e1).congr_deriv ?_
  rw [tPdf_eq h]
  have hu : 0 < 1 + x ^ 2 / ν := by positivity
  have e2 : ν + x ^ 2 = ν * (1 + x ^ 2 / ν) := by field_simp
  have e3 : 1 - ν / (ν + x ^ 2) = x ^ 2 / (ν + x ^ 2) := by field_simp; ring
  have e4 : ν / (ν + x ^ 2) = (1 + x ^ 2 / ν)⁻¹ := by rw [e2]; field_simp
  have hax : 0 < |x| := abs_pos.2 hx
  rw [e3, e4, e2]
  set u := 1 + x ^ 2 / ν with hudef
  have e5 : (x ^ 2 / (ν * u)) ^ (1 / 2 - 1 : ℝ) = √ν * √u / |x| := by
    have : (1 / 2 - 1 : ℝ) = -(1 / 2) := by norm_num
    rw [this, Real.rpow_neg (by positivity), ← Real.sqrt_eq_rpow, Real.sqrt_div (by positivity),
      Real.sqrt_sq_eq_abs, Real.sqrt_mul h.le, inv_div]
  have e6 : u⁻¹ ^ (ν / 2 - 1) = u ^ (-((ν + 1) / 2)) * u ^ 2 / √u := by
    rw [Real.inv_rpow hu.le, Real.sqrt_eq_rpow, ← Real.rpow_natCast, ← Real.rpow_neg hu.le, ← Real.rpow_add hu,
      ← Real.rpow_sub hu]
    congr 1; push_cast; ring
  rw [e5, e6]
  have hsu : 0 < √u := Real.sqrt_pos.2 hu
  have hsn : 0 < √ν := Real.sqrt_pos.2 h
  have e7 : √ν ^ 2 = ν := Real.sq_sqrt h.le
  field_simp
  rw [e7]

theorem tTail_zero {ν : ℝ} (h : 0 < ν) : tTail ν 0 = 1 := by
  have : ν / (ν + 0 ^ 2) = 1 := by field_simp; ring
  rw [tTail, this, betaI_one (half_pos h) (by norm_num)]

theorem tTail_neg (ν x : ℝ) : tTail ν (-x) = tTail ν x := by rw [tTail, tTail, neg_sq]

theorem tTail_mem {ν : ℝ} (h : 0 < ν) (x : ℝ) : tTail ν x ∈ Icc (0 : ℝ) 1 :=
  betaI_mem (half_pos h) (by norm_num) (t_arg_mem h)

theorem continuous_tTail {ν : ℝ} (h : 0 < ν) : Continuous (tTail ν) := by
  apply (continuousOn_betaI (half_pos h) (by norm_num)).comp_continuous
  · exact Continuous.div (by fun_prop) (by fun_prop) fun x => by positivity
  · exact fun x => t_arg_mem h

theorem tendsto_tTail_atTop {ν : ℝ} (h : 0 < ν) : Tendsto (tTail ν) atTop (𝓝 0) := by
  have h3 : Tendsto (fun x : ℝ => ν / (ν + x ^ 2)) atTop (𝓝[Icc 0 1] 0) := by
    apply tendsto_nhdsWithin_of_tendsto_nhds_of_eventually_within
    · exact tendsto_const_nhds.div_atTop (tendsto_atTop_add_const_left _ _ (tendsto_pow_atTop two_ne_zero))
    · exact Eventually.of_forall fun x => t_arg_mem h
  have h6 := (continuousOn_betaI (half_pos h) (show (0 : ℝ) < 1 / 2 by norm_num)) 0 (by simp)
  rw [ContinuousWithinAt, betaI_zero] at h6
  exact h6.comp h3

theorem tendsto_tTail_atBot {ν : ℝ} (h : 0 < ν) : Tendsto (tTail ν) atBot (𝓝 0) :=
  ((tendsto_tTail_atTop h).comp tendsto_neg_atBot_atTop).congr fun x => tTail_neg ν x

theorem isCdf_t {ν : ℝ} (h : 0 < ν) : IsCdf (tCdf ν) (tPdf ν) := by
  apply isCdf_of_deriv _ {0}
  · intro x hx
    have hx0 : x ≠ 0 := by simpa using hx
    have hd := (hasDerivAt_tTail h hx0).div_const 2
    rcases lt_or_gt_of_ne hx0 with h1 | h1
    · refine HasDerivAt.congr_of_eventuallyEq (f := fun x => tTail ν x / 2) ?_ ?_
      · refine hd.congr_deriv ?_
        rw [abs_of_neg h1]
        field_simp
      · filter_upwards [Iio_mem_nhds h1] with y hy
        rw [tCdf, if_neg (not_lt.2 (le_of_lt hy))]
    · refine HasDerivAt.congr_of_eventuallyEq (f := fun x => 1 - tTail ν x / 2) ?_ ?_
      · refine (hd.const_sub 1).congr_deriv ?_
        rw [abs_of_pos h1]
        field_simp
      · filter_upwards [Ioi_mem_nhds h1] with y hy
        rw [tCdf, if_pos (show 0 < y from hy)]
  · exact fun x _ => tPdf_nonneg h x
  · have := (tendsto_tTail_atBot h).div_const 2
    rw [zero_div] at this
    refine this.congr' ?_
    filter_upwards [Iic_mem_atBot 0] with x hx
    rw [tCdf, if_neg (not_lt.2 hx)]
  · have := ((tendsto_tTail_atTop h).div_const 2).const_sub 1
    rw [zero_div, sub_zero] at this
    refine this.congr' ?_
    filter_upwards [Ioi_mem_atTop 0] with x hx
    rw [tCdf, if_pos (show 0 < x from hx)]
  · have hc := continuous_tTail h
    unfold tCdf
    simp_rw [← not_le, ite_not]
    refine Continuous.if_le (by fun_prop) (by fun_prop) (by fun_prop) (by fun_prop) ?_
    intro x hx
    rw [hx, tTail_zero h]
    norm_num

/-- one degree of freedom is the Cauchy distribution -/
theorem tPdf_one (x : ℝ) : tPdf 1 x = cauchyPdf 0 1 x := by
  have h0 : (1 + 1 : ℝ) / 2 = 1 := by norm_num
  have hu : (0 : ℝ) < 1 + x ^ 2 := by positivity
  rw [tPdf, cauchyPdf, h0, Real.Gamma_one, Real.Gamma_one_half_eq, one_mul, Real.mul_self_sqrt Real.pi_pos.le,
    div_one, Real.rpow_neg_one]
  have := Real.pi_pos
  simp only [sub_zero, div_one, mul_one]
  field_simp

theorem isCdf_t_one : IsCdf (fun x => 1 / 2 + arctan x / π) (tPdf 1) := by
  have h := isCdf_cauchy 0 one_pos
  have e : tPdf 1 = cauchyPdf 0 1 := funext tPdf_one
  rw [e]
  simpa using h

theorem isCdf_t_two : IsCdf (fun x => 1 / 2 + x / (2 * √(x * x + 2))) (tPdf 2) := by
  have hpos : ∀ x : ℝ, 0 < x * x + 2 := fun x => by nlinarith [mul_self_nonneg x]
  have htop : Tendsto (fun x : ℝ => x / (2 * √(x * x + 2))) atTop (𝓝 (1 / 2)) := by
    have h1 : Tendsto (fun x : ℝ => 1 / (2 * √(1 + 2 / x ^ 2))) atTop (𝓝 (1 / (2 * √(1 + 0)))) := by
      refine tendsto_const_nhds.div (tendsto_const_nhds.mul ?_) (by simp)
      refine (Real.continuous_sqrt.tendsto _).comp (tendsto_const_nhds.add ?_)
      exact tendsto_const_nhds.div_atTop (tendsto_pow_atTop two_ne_zero)
    rw [add_zero, Real.sqrt_one, mul_one] at h1
    refine h1.congr' ?_
    filter_upwards [Ioi_mem_atTop 0] with x hx
    have hx : 0 < x := hx
    have e : x * x + 2 = x ^ 2 * (1 + 2 / x ^ 2) := by field_simp
    rw [e, Real.sqrt_mul (by positivity), Real.sqrt_sq hx.le]
    have : 0 < √(1 + 2 / x ^ 2) := Real.sqrt_pos.2 (by positivity)
    field_simp
  apply isCdf_of_deriv'
  · intro x
    have hs : 0 < √(x * x + 2) := Real.sqrt_pos.2 (hpos x)
    have e1 : HasDerivAt (fun x : ℝ => x * x + 2) (2 * x) x := by
      refine (((hasDerivAt_id x).mul (hasDerivAt_id x)).add_const 2).congr_deriv ?_
      simp; ring
    have e2 := ((hasDerivAt_id x).div ((e1.sqrt (hpos x).ne').const_mul 2) (by positivity)).const_add (1 / 2)
    refine e2.congr_deriv ?_
    have h2 : (0:ℝ) < 2 := two_pos
    have hu : 0 < 1 + x ^ 2 / 2 := by positivity
    have e3 : x * x + 2 = 2 * (1 + x ^ 2 / 2) := by ring
    have e4 : (1 + x ^ 2 / 2) ^ (-((2 + 1 : ℝ) / 2)) = ((1 + x ^ 2 / 2) * √(1 + x ^ 2 / 2))⁻¹ := by
      have : ((2 + 1 : ℝ) / 2) = 1 + 1 / 2 := by norm_num
      rw [Real.rpow_neg hu.le, this, Real.rpow_add hu, Real.rpow_one, ← Real.sqrt_eq_rpow]
    have e5 : beta (2 / 2) (1 / 2) = 2 := by
      have h3 : (2 / 2 : ℝ) + 1 / 2 = 1 / 2 + 1 := by norm_num
      have h4 : 0 < √π := Real.sqrt_pos.2 Real.pi_pos
      rw [beta, h3, Real.Gamma_add_one (by norm_num), Real.Gamma_one_half_eq, div_self two_ne_zero, Real.Gamma_one]
      field_simp
    rw [tPdf_eq h2, e4, e5]
    simp only [id]
    rw [e3, Real.sqrt_mul h2.le]
    set s := √(1 + x ^ 2 / 2) with hsdef
    have hs0 : 0 < s := Real.sqrt_pos.2 hu
    have hs2 : s ^ 2 = 1 + x ^ 2 / 2 := Real.sq_sqrt hu.le
    rw [← hs2]
    have hx2 : x ^ 2 = 2 * s ^ 2 - 2 := by rw [hs2]; ring
    have h22 : √2 ^ 2 = (2 : ℝ) := Real.sq_sqrt h2.le
    have h20 : 0 < √(2 : ℝ) := Real.sqrt_pos.2 h2
    field_simp
    rw [h22, hx2]
    ring
  · exact fun x => tPdf_nonneg two_pos x
  · have := (htop.comp tendsto_neg_atBot_atTop).const_sub (1 / 2)
    rw [sub_self] at this
    refine this.congr fun x => ?_
    simp only [Function.comp, neg_mul_neg, neg_div]
    ring
  · have := htop.const_add (1 / 2)
    norm_num at this
    simpa using this

/-! ### inverse Gaussian -/

noncomputable def invgaussCdf (μ l x : ℝ) : ℝ :=
  Phi (√(l / x) * (x / μ - 1)) + exp (2 * l / μ) * Phi (-√(l / x) * (x / μ + 1))

theorem isCdf_invgauss {μ l : ℝ} (hm : 0 < μ) (hl : 0 < l) :
    IsCdf (fun x => if 0 < x then invgaussCdf μ l x else 0) (invgaussPdf μ l) := by
  have hs0 : Tendsto (fun x : ℝ => √(l / x)) (𝓝[>] 0) atTop := by
    refine Real.tendsto_sqrt_atTop.comp ?_
    exact tendsto_inv_nhdsGT_zero.const_mul_atTop hl
  have hstop : Tendsto (fun x : ℝ => √(l / x) * (x / μ)) atTop atTop := by
    have : Tendsto (fun x : ℝ => √l / μ * √x) atTop atTop :=
      Real.tendsto_sqrt_atTop.const_mul_atTop (div_pos (Real.sqrt_pos.2 hl) hm)
    refine this.congr' ?_
    filter_upwards [Ioi_mem_atTop 0] with x hx
    have hx : 0 < x := hx
    rw [Real.sqrt_div hl.le]
    have h1 := Real.sqrt_pos.2 hx
    have h2 : √x * √x = x := Real.mul_self_sqrt hx.le
    field_simp
    nlinarith
  have hsz : Tendsto (fun x : ℝ => √(l / x)) atTop (𝓝 0) := by
    have := (Real.continuous_sqrt.tendsto 0).comp
      ((tendsto_const_nhds (x := l)).div_atTop (tendsto_id (α := ℝ) (x := atTop)))
    rw [Real.sqrt_zero] at this
    exact this
  have := isCdf_Ioi (G := invgaussCdf μ l)
    (g := fun x => √(l / (2 * π * x ^ 3)) * exp (-(l * (x - μ) ^ 2) / (2 * μ ^ 2 * x))) ?_ ?_ ?_ ?_
  · exact this
  · intro x hx
    have hlx : 0 < l / x := by positivity
    set s := √(l / x) with hs
    have hspos : 0 < s := Real.sqrt_pos.2 hlx
    have hs2 : s ^ 2 = l / x := Real.sq_sqrt hlx.le
    have ds : HasDerivAt (fun x => √(l / x)) (-s / (2 * x)) x := by
      have hd : HasDerivAt (fun x => l / x) (-l / x ^ 2) x := by
        have := (hasDerivAt_inv hx.ne').const_mul l
        refine this.congr_deriv ?_
        field_simp
      refine (hd.sqrt hlx.ne').congr_deriv ?_
      rw [← hs]
      have : l = s ^ 2 * x := by rw [hs2]; field_simp
      rw [this]; field_simp
    have dx : HasDerivAt (fun x : ℝ => x / μ) (1 / μ) x := (hasDerivAt_id x).div_const μ
    have du := ds.mul (dx.sub_const 1)
    have dv := ds.neg.mul (dx.add_const 1)
    have dF := ((hasDerivAt_Phi _).comp x du).add (((hasDerivAt_Phi _).comp x dv).const_mul (exp (2 * l / μ)))
    refine dF.congr_deriv ?_
    simp only [Pi.neg_apply, Pi.mul_apply]
    rw [← hs]
    have hn : ∀ z, normPdf 0 1 z = 1 / √(2 * π) * exp (-(z ^ 2) / 2) := by
      intro z; simp [normPdf]
    have key : exp (2 * l / μ) * normPdf 0 1 (-s * (x / μ + 1)) = normPdf 0 1 (s * (x / μ - 1)) := by
      rw [hn, hn, mul_left_comm, ← Real.exp_add]
      congr 2
      have : l = s ^ 2 * x := by rw [hs2]; field_simp
      rw [this]; field_simp; ring
    rw [← mul_assoc, key, hn]
    have e1 : -((s * (x / μ - 1)) ^ 2) / 2 = -(l * (x - μ) ^ 2) / (2 * μ ^ 2 * x) := by
      rw [mul_pow, hs2]; field_simp
    have e2 : √(l / (2 * π * x ^ 3)) = 1 / √(2 * π) * (s / x) := by
      have : l / (2 * π * x ^ 3) = (l / x) / ((2 * π) * x ^ 2) := by field_simp
      rw [this, Real.sqrt_div hlx.le, Real.sqrt_mul (by positivity), Real.sqrt_sq hx.le, ← hs]
      field_simp
    rw [e1, e2]
    ring
  · intro x hx; positivity
  · have h1 : Tendsto (fun x : ℝ => √(l / x) * (x / μ - 1)) (𝓝[>] 0) atBot := by
      refine hs0.atTop_mul_neg (C := -1) (by norm_num) ?_
      have : ContinuousAt (fun x : ℝ => x / μ - 1) 0 := by fun_prop
      simpa using this.tendsto.mono_left (nhdsWithin_le_nhds (s := Ioi 0))
    have h2 : Tendsto (fun x : ℝ => -√(l / x) * (x / μ + 1)) (𝓝[>] 0) atBot := by
      refine (tendsto_neg_atTop_atBot.comp hs0).atBot_mul_pos (C := 1) (by norm_num) ?_
      have : ContinuousAt (fun x : ℝ => x / μ + 1) 0 := by fun_prop
      simpa using this.tendsto.mono_left (nhdsWithin_le_nhds (s := Ioi 0))
    have := (tendsto_Phi_atBot.comp h1).add ((tendsto_Phi_atBot.comp h2).const_mul (exp (2 * l / μ)))
    rw [mul_zero, add_zero] at this
    exact this
  · have h1 : Tendsto (fun x : ℝ => √(l / x) * (x / μ - 1)) atTop atTop := by
      have := hstop.atTop_add hsz.neg
      refine this.congr fun x => ?_
      ring
    have h2 : Tendsto (fun x : ℝ => -√(l / x) * (x / μ + 1)) atTop atBot := by
      have := (tendsto_neg_atTop_atBot.comp hstop).atBot_add hsz.neg
      refine this.congr fun x => ?_
      simp only [Function.comp]
      ring
    have := (tendsto_Phi_atTop.comp h1).add ((tendsto_Phi_atBot.comp h2).const_mul (exp (2 * l / μ)))
    rw [mul_zero, add_zero] at this
    exact this

end Stats

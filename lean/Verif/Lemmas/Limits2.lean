import Verif.Lemmas.Limits
import Verif.Lemmas.QuantIdeal

/-! # Limits at infinite parameters, continued: inverse Gaussian, t, F, Weibull, beta, and distribution functions -/

set_option linter.unusedSectionVars false
open Filter Topology MeasureTheory Set

namespace Stats.Lim
open Stats.Spec

theorem normPdf_std' (z : ℝ) : normPdf 0 1 z = 1 / √(2 * Real.pi) * Real.exp (-(z ^ 2) / 2) := by simp [normPdf]

/-! ### inverse Gaussian -/

theorem Phi_tail {z : ℝ} (hz : 1 ≤ z) : Phi (-z) ≤ Real.exp (-(z ^ 2) / 2) := by
  have hpi : 1 ≤ √(2 * Real.pi) := by
    rw [Real.one_le_sqrt]; linarith [Real.two_le_pi]
  set D : ℝ → ℝ := fun z => Real.exp (-(z ^ 2) / 2) - Phi (-z) with hD
  have hd : ∀ z, HasDerivAt D (Real.exp (-(z ^ 2) / 2) * -z + normPdf 0 1 z) z := by
    intro z
    have h1 : HasDerivAt (fun z : ℝ => -(z ^ 2) / 2) (-z) z := by
      have := ((hasDerivAt_pow 2 z).neg).div_const 2
      refine this.congr_deriv ?_
      push_cast; ring
    have h2 : HasDerivAt (fun z => Phi (-z)) (normPdf 0 1 (-z) * -1) z :=
      (hasDerivAt_Phi (-z)).comp z (hasDerivAt_neg z)
    refine (h1.exp.sub h2).congr_deriv ?_
    rw [normPdf_std', normPdf_std', neg_sq]; ring
  have ha : AntitoneOn D (Ici 1) := by
    refine antitoneOn_of_deriv_nonpos (convex_Ici 1) (fun z _ => (hd z).continuousAt.continuousWithinAt)
      (fun z _ => (hd z).differentiableAt.differentiableWithinAt) fun z hz => ?_
    rw [interior_Ici] at hz
    have hz : 1 < z := hz
    rw [(hd z).deriv, normPdf_std']
    have : 1 / √(2 * Real.pi) ≤ 1 := by rw [div_le_one (by linarith)]; exact hpi
    have he := Real.exp_pos (-(z ^ 2) / 2)
    nlinarith
  have hl : Tendsto D atTop (𝓝 (0 - 0)) := by
    refine Tendsto.sub ?_ (tendsto_Phi_atBot.comp tendsto_neg_atTop_atBot)
    refine Real.tendsto_exp_atBot.comp ?_
    have := (tendsto_pow_atTop (α := ℝ) two_ne_zero).const_mul_atTop (show (0 : ℝ) < 1 / 2 by norm_num)
    refine (tendsto_neg_atTop_atBot.comp this).congr fun t => ?_
    simp only [Function.comp]; ring
  have : 0 ≤ D z := by
    rw [sub_zero] at hl
    refine le_of_tendsto hl ?_
    filter_upwards [eventually_ge_atTop z] with w hw
    exact ha hz (hz.trans hw : (1 : ℝ) ≤ w) hw
  simp only [hD] at this
  linarith

theorem invgauss_x {mu l : ℝ} (hm : 0 < mu) (hl : 0 < l) : Tendsto (fun x => invgaussPdf mu l x) atTop (𝓝 0) := by
  have hpi := Real.pi_pos
  have h1 : Tendsto (fun x : ℝ => √(l / (2 * Real.pi * x ^ 3))) atTop (𝓝 √0) := by
    refine (Real.continuous_sqrt.tendsto 0).comp (tendsto_const_nhds.div_atTop ?_)
    exact (tendsto_pow_atTop (by norm_num)).const_mul_atTop (by positivity)
  rw [Real.sqrt_zero] at h1
  refine squeeze_zero' ?_ ?_ h1
  · filter_upwards with x
    unfold invgaussPdf; split_ifs <;> positivity
  · filter_upwards [eventually_gt_atTop 0] with x hx
    rw [invgaussPdf, if_pos hx]
    refine mul_le_of_le_one_right (by positivity) (Real.exp_le_one_iff.2 ?_)
    rw [neg_div]
    have : 0 ≤ l * (x - mu) ^ 2 / (2 * mu ^ 2 * x) := by positivity
    linarith

theorem invgauss_lambda {mu x : ℝ} (hm : 0 < mu) (hne : x ≠ mu) :
    Tendsto (fun l => invgaussPdf mu l x) atTop (𝓝 0) := by
  by_cases hx : 0 < x
  · have hpi := Real.pi_pos
    have hc : 0 < (x - mu) ^ 2 / (2 * mu ^ 2 * x) := by
      have : x - mu ≠ 0 := sub_ne_zero.2 hne
      positivity
    have h := (exp_kills (1 / 2) hc).const_mul (1 / √(2 * Real.pi * x ^ 3))
    rw [mul_zero] at h
    refine h.congr' ?_
    filter_upwards [eventually_gt_atTop 0] with l hl
    rw [invgaussPdf, if_pos hx, Real.sqrt_div hl.le, Real.sqrt_eq_rpow l]
    rw [show -((x - mu) ^ 2 / (2 * mu ^ 2 * x)) * l = -(l * (x - mu) ^ 2) / (2 * mu ^ 2 * x) by ring]
    ring
  · simp only [invgaussPdf, if_neg hx]; exact tendsto_const_nhds

theorem invgaussCdf_lambda {mu x : ℝ} (hm : 0 < mu) (hx : 0 < x) (hne : x ≠ mu) :
    Tendsto (fun l => invgaussCdf mu l x) atTop (𝓝 (if mu ≤ x then 1 else 0)) := by
  have hs : Tendsto (fun l : ℝ => √(l / x)) atTop atTop :=
    Real.tendsto_sqrt_atTop.comp (tendsto_id.atTop_div_const hx)
  have h2 : Tendsto (fun l => Real.exp (2 * l / mu) * Phi (-√(l / x) * (x / mu + 1))) atTop (𝓝 0) := by
    have hc : 0 < (x / mu - 1) ^ 2 / (2 * x) := by
      have : x / mu - 1 ≠ 0 := by
        intro h
        have : x / mu = 1 := by linarith
        exact hne ((div_eq_one_iff_eq hm.ne').1 this)
      positivity
    have hb : Tendsto (fun l : ℝ => Real.exp (-((x / mu - 1) ^ 2 / (2 * x)) * l)) atTop (𝓝 0) :=
      Real.tendsto_exp_atBot.comp (tendsto_id.const_mul_atTop_of_neg (neg_lt_zero.2 hc))
    refine squeeze_zero' ?_ ?_ hb
    · filter_upwards with l
      have := Phi_pos (-√(l / x) * (x / mu + 1))
      positivity
    · have hz : Tendsto (fun l : ℝ => √(l / x) * (x / mu + 1)) atTop atTop :=
        hs.atTop_mul_const (by positivity)
      filter_upwards [hz.eventually_ge_atTop 1, eventually_gt_atTop 0] with l hl hl0
      have ht := Phi_tail hl
      rw [neg_mul]
      calc Real.exp (2 * l / mu) * Phi (-(√(l / x) * (x / mu + 1)))
          ≤ Real.exp (2 * l / mu) * Real.exp (-((√(l / x) * (x / mu + 1)) ^ 2) / 2) := by gcongr
        _ = Real.exp (-((x / mu - 1) ^ 2 / (2 * x)) * l) := by
          rw [← Real.exp_add]
          congr 1
          rw [mul_pow, Real.sq_sqrt (by positivity)]
          field_simp
          ring
  have h1 : Tendsto (fun l => Phi (√(l / x) * (x / mu - 1))) atTop (𝓝 (if mu ≤ x then 1 else 0)) := by
    split_ifs with h
    · have hlt : mu < x := lt_of_le_of_ne h hne.symm
      refine tendsto_Phi_atTop.comp (hs.atTop_mul_const ?_)
      rw [sub_pos, one_lt_div hm]; exact hlt
    · push Not at h
      refine tendsto_Phi_atBot.comp (hs.atTop_mul_const_of_neg ?_)
      rw [sub_neg, div_lt_one hm]; exact h
  simpa [invgaussCdf] using h1.add h2

/-- The limit of the inverse Gaussian density for growing mean is positive (the Lévy density). -/
theorem invgauss_mu {l x : ℝ} (hx : 0 < x) :
    Tendsto (fun mu => invgaussPdf mu l x) atTop
      (𝓝 (√(l / (2 * Real.pi * x ^ 3)) * Real.exp (-l / (2 * x)))) := by
  have h0 : Tendsto (fun mu : ℝ => x / mu) atTop (𝓝 0) := tendsto_const_nhds.div_atTop tendsto_id
  have h1 : Tendsto (fun mu : ℝ => -l / (2 * x) * (x / mu - 1) ^ 2) atTop (𝓝 (-l / (2 * x) * (0 - 1) ^ 2)) :=
    ((h0.sub_const 1).pow 2).const_mul _
  have h2 := ((Real.continuous_exp.tendsto _).comp h1).const_mul (√(l / (2 * Real.pi * x ^ 3)))
  rw [show -l / (2 * x) * (0 - 1) ^ 2 = -l / (2 * x) by ring] at h2
  refine h2.congr' ?_
  filter_upwards [eventually_gt_atTop 0] with mu hm
  simp only [invgaussPdf, if_pos hx, Function.comp]
  congr 2
  field_simp

theorem invgaussCdf_mu {l x : ℝ} :
    Tendsto (fun mu => invgaussCdf mu l x) atTop (𝓝 (2 * Phi (-√(l / x)))) := by
  have hc : Continuous Phi := continuous_iff_continuousAt.2 fun z => (hasDerivAt_Phi z).continuousAt
  have h0 : Tendsto (fun mu : ℝ => x / mu) atTop (𝓝 0) := tendsto_const_nhds.div_atTop tendsto_id
  have h1 : Tendsto (fun mu : ℝ => 2 * l / mu) atTop (𝓝 0) := tendsto_const_nhds.div_atTop tendsto_id
  have h2 := (hc.tendsto _).comp ((h0.sub_const 1).const_mul √(l / x))
  have h3 := (hc.tendsto _).comp ((h0.add_const 1).const_mul (-√(l / x)))
  have h4 := h2.add (((Real.continuous_exp.tendsto _).comp h1).mul h3)
  simp only [Real.exp_zero, zero_sub, zero_add, mul_one, one_mul, mul_neg] at h4
  rw [← two_mul] at h4
  exact h4

/-! ### Student t and F -/

/-- `(1 + c/t)^(-(t+b)/2) → e^(-c/2)` -/
theorem compound (c b : ℝ) :
    Tendsto (fun t : ℝ => (1 + c / t) ^ (-((t + b) / 2))) atTop (𝓝 (Real.exp (-c / 2))) := by
  have h0 : Tendsto (fun t : ℝ => c / t) atTop (𝓝 0) := tendsto_const_nhds.div_atTop tendsto_id
  have h1 := Real.tendsto_one_add_div_rpow_exp c
  have h2 : Tendsto (fun t : ℝ => ((1 + c / t) ^ t) ^ (-(1 / 2) : ℝ)) atTop (𝓝 (Real.exp c ^ (-(1 / 2) : ℝ))) :=
    h1.rpow_const (Or.inl (Real.exp_pos c).ne')
  have h3 : Tendsto (fun t : ℝ => (1 + c / t) ^ (-(b / 2))) atTop (𝓝 ((1 + 0) ^ (-(b / 2)))) :=
    (h0.const_add 1).rpow_const (Or.inl (by norm_num))
  have h4 := h2.mul h3
  rw [add_zero, Real.one_rpow, mul_one, ← Real.exp_mul] at h4
  rw [show -c / 2 = c * -(1 / 2) by ring]
  refine h4.congr' ?_
  have hp : ∀ᶠ t in atTop, 0 < 1 + c / t := by
    have := h0.const_add 1
    exact this.eventually_const_lt (by norm_num)
  filter_upwards [hp] with t ht
  rw [← Real.rpow_mul ht.le, ← Real.rpow_add ht]
  congr 1; ring

theorem t_dof (x : ℝ) : Tendsto (fun ν => tPdf ν x) atTop (𝓝 (normPdf 0 1 x)) := by
  have hpi := Real.pi_pos
  have h1 := (gamma_ratio (s := 1 / 2) (by norm_num)).comp (tendsto_id.atTop_div_const (show (0 : ℝ) < 2 by norm_num))
  have h2 := (h1.mul (compound (x ^ 2) 1)).const_mul (1 / √(2 * Real.pi))
  rw [one_mul] at h2
  rw [normPdf_std']
  refine h2.congr' ?_
  filter_upwards [eventually_gt_atTop 0] with ν hν
  have hg := (Real.Gamma_pos_of_pos (show 0 < ν / 2 by positivity)).ne'
  simp only [Function.comp, id, tPdf]
  rw [← Real.sqrt_eq_rpow, show ν / 2 + 1 / 2 = (ν + 1) / 2 by ring,
    show √(ν * Real.pi) = √(ν / 2) * √(2 * Real.pi) by
      rw [← Real.sqrt_mul (by positivity)]; congr 1; ring]
  have h3 := (Real.sqrt_pos.2 (show 0 < ν / 2 by positivity)).ne'
  have h4 := (Real.sqrt_pos.2 (show 0 < 2 * Real.pi by positivity)).ne'
  field_simp

theorem tCdf_dof (x : ℝ) : Tendsto (fun ν => tCdf ν x) atTop (𝓝 (Phi x)) := by
  have h := scheffe (F := tCdf) (f := tPdf) (G := fun x => Phi ((x - 0) / 1)) (g := normPdf 0 1)
    ((eventually_gt_atTop 0).mono fun ν hν => isCdf_t hν) (isCdf_norm 0 one_pos)
    (Eventually.of_forall fun x => t_dof x) x
  simpa using h

theorem t_far {ν : ℝ} (hν : 0 < ν) {l : Filter ℝ} (h : Tendsto (fun x : ℝ => |x|) l atTop) :
    Tendsto (fun x => tPdf ν x) l (𝓝 0) := by
  have h1 : Tendsto (fun x : ℝ => 1 + x ^ 2 / ν) l atTop := by
    have := ((tendsto_pow_atTop two_ne_zero).comp h).atTop_div_const hν
    refine (tendsto_atTop_add_const_left _ 1 this).congr fun x => ?_
    simp only [Function.comp, sq_abs]
  have h2 := ((tendsto_rpow_neg_atTop (show 0 < (ν + 1) / 2 by positivity)).comp h1).const_mul
    (Real.Gamma ((ν + 1) / 2) / (√(ν * Real.pi) * Real.Gamma (ν / 2)))
  rw [mul_zero] at h2
  exact h2

theorem f_df2 {d₁ x : ℝ} (h1 : 0 < d₁) (hx : 0 < x) :
    Tendsto (fun d₂ => fPdf d₁ d₂ x) atTop (𝓝 (gammaPdf (d₁ / 2) (2 / d₁) x)) := by
  have hg1 := (Real.Gamma_pos_of_pos (show 0 < d₁ / 2 by positivity)).ne'
  have g := (gamma_ratio (s := d₁ / 2) (by positivity)).comp
    (tendsto_id.atTop_div_const (show (0 : ℝ) < 2 by norm_num))
  have h2 := (g.mul (compound (d₁ * x) d₁)).const_mul ((d₁ / 2) ^ (d₁ / 2) * x ^ (d₁ / 2 - 1) / Real.Gamma (d₁ / 2))
  rw [one_mul] at h2
  have e : gammaPdf (d₁ / 2) (2 / d₁) x =
      (d₁ / 2) ^ (d₁ / 2) * x ^ (d₁ / 2 - 1) / Real.Gamma (d₁ / 2) * Real.exp (-(d₁ * x) / 2) := by
    rw [gammaPdf, if_pos hx, show (2 / d₁ : ℝ) = (d₁ / 2)⁻¹ by rw [inv_div], Real.inv_rpow (by positivity)]
    have := (Real.rpow_pos_of_pos (show 0 < d₁ / 2 by positivity) (d₁ / 2)).ne'
    rw [show -x / (d₁ / 2)⁻¹ = -(d₁ * x) / 2 by rw [div_inv_eq_mul]; ring]
    field_simp
  rw [e]
  refine h2.congr' ?_
  filter_upwards [eventually_gt_atTop 0] with d₂ h2
  have hg2 := (Real.Gamma_pos_of_pos (show 0 < d₂ / 2 by positivity)).ne'
  have hg3 := (Real.Gamma_pos_of_pos (show 0 < d₁ / 2 + d₂ / 2 by positivity)).ne'
  simp only [Function.comp, id, fPdf, if_pos hx, beta]
  rw [show d₂ / 2 + d₁ / 2 = d₁ / 2 + d₂ / 2 by ring, show 1 + d₁ / d₂ * x = 1 + d₁ * x / d₂ by ring,
    show (d₂ + d₁) / 2 = (d₁ + d₂) / 2 by ring]
  have e2 : (d₁ / d₂) ^ (d₁ / 2) = (d₁ / 2) ^ (d₁ / 2) / (d₂ / 2) ^ (d₁ / 2) := by
    rw [← Real.div_rpow (by positivity) (by positivity)]; congr 1; field_simp
  rw [e2]
  have := (Real.rpow_pos_of_pos (show 0 < d₂ / 2 by positivity) (d₁ / 2)).ne'
  generalize (d₂ / 2) ^ (d₁ / 2) = A at *
  generalize (d₁ / 2) ^ (d₁ / 2) = B at *
  field_simp

/-- swapping the degrees of freedom inverts the variable -/
theorem f_inv {d₁ d₂ x : ℝ} (h1 : 0 < d₁) (h2 : 0 < d₂) (hx : 0 < x) :
    fPdf d₁ d₂ x = fPdf d₂ d₁ (1 / x) * (1 / x ^ 2) := by
  have hx' : 0 < 1 / x := by positivity
  rw [fPdf, fPdf, if_pos hx, if_pos hx', beta_comm]
  have p1 : 0 < 1 + d₁ / d₂ * x := by positivity
  have e1 : 1 + d₂ / d₁ * (1 / x) = (1 + d₁ / d₂ * x) * ((d₂ / d₁) * (1 / x)) := by field_simp; ring
  rw [e1, Real.mul_rpow p1.le (by positivity), Real.mul_rpow (by positivity) hx'.le, show (d₂ + d₁) / 2 = (d₁ + d₂) / 2 by ring]
  rw [show d₁ / d₂ = (d₂ / d₁)⁻¹ by rw [inv_div]]
  set r := d₂ / d₁ with hr
  have hr0 : 0 < r := by positivity
  rw [one_div x, Real.inv_rpow hr0.le, Real.inv_rpow hx.le, Real.inv_rpow hx.le, ← Real.rpow_neg hr0.le,
    ← Real.rpow_neg hx.le, ← Real.rpow_neg hx.le]
  have e2 : x ^ (d₁ / 2 - 1) = x ^ (-(d₂ / 2 - 1)) * x ^ (- -((d₁ + d₂) / 2)) * (1 / x ^ 2) := by
    rw [← Real.rpow_add hx, one_div, ← Real.rpow_natCast x 2, ← Real.rpow_neg hx.le, ← Real.rpow_add hx]
    congr 1; push_cast; ring
  have e3 : r ^ (-(d₁ / 2)) = r ^ (d₂ / 2) * r ^ (-((d₁ + d₂) / 2)) := by
    rw [← Real.rpow_add hr0]; congr 1; ring
  rw [e2, e3]
  ring

theorem invgamma_inv {α β x : ℝ} (hβ : 0 < β) (hx : 0 < x) :
    invgammaPdf α β x = gammaPdf α (1 / β) (1 / x) * (1 / x ^ 2) := by
  have hx' : 0 < 1 / x := by positivity
  rw [invgammaPdf, gammaPdf, if_pos hx, if_pos hx', one_div, one_div, Real.inv_rpow hx.le, Real.inv_rpow hβ.le,
    ← Real.rpow_neg hx.le, show -x⁻¹ / β⁻¹ = -β / x by field_simp]
  have e : x ^ (-α - 1) = x ^ (-(α - 1)) * (1 / x ^ 2) := by
    rw [one_div, ← Real.rpow_natCast x 2, ← Real.rpow_neg hx.le, ← Real.rpow_add hx]; congr 1; push_cast; ring
  rw [e]
  have := (Real.rpow_pos_of_pos hβ α).ne'
  field_simp

theorem f_df1 {d₂ x : ℝ} (h2 : 0 < d₂) (hx : 0 < x) :
    Tendsto (fun d₁ => fPdf d₁ d₂ x) atTop (𝓝 (invgammaPdf (d₂ / 2) (d₂ / 2) x)) := by
  have h := (f_df2 h2 (show 0 < 1 / x by positivity)).mul_const (1 / x ^ 2)
  rw [invgamma_inv (by positivity) hx, one_div_div]
  refine h.congr' ?_
  filter_upwards [eventually_gt_atTop 0] with d₁ h1 using (f_inv h1 h2 hx).symm

theorem fCdf_df2 {d₁ : ℝ} (h1 : 0 < d₁) (x : ℝ) :
    Tendsto (fun d₂ => if 0 < x then fCdf d₁ d₂ x else 0) atTop
      (𝓝 (if 0 < x then gammaP (d₁ / 2) (x / (2 / d₁)) else 0)) := by
  refine scheffe (F := fun d₂ x => if 0 < x then fCdf d₁ d₂ x else 0) (f := fun d₂ x => fPdf d₁ d₂ x)
    ((eventually_gt_atTop 0).mono fun d₂ h2 => isCdf_f h1 h2)
    (isCdf_gamma (show 0 < d₁ / 2 by positivity) (show 0 < 2 / d₁ by positivity))
    (Eventually.of_forall fun x => ?_) x
  by_cases hx : 0 < x
  · exact f_df2 h1 hx
  · simp [fPdf, gammaPdf, hx]

theorem fCdf_df1 {d₂ : ℝ} (h2 : 0 < d₂) (x : ℝ) :
    Tendsto (fun d₁ => if 0 < x then fCdf d₁ d₂ x else 0) atTop
      (𝓝 (if 0 < x then 1 - gammaP (d₂ / 2) (d₂ / 2 / x) else 0)) := by
  refine scheffe (F := fun d₁ x => if 0 < x then fCdf d₁ d₂ x else 0) (f := fun d₁ x => fPdf d₁ d₂ x)
    ((eventually_gt_atTop 0).mono fun d₁ h1 => isCdf_f h1 h2)
    (isCdf_invgamma (show 0 < d₂ / 2 by positivity) (show 0 < d₂ / 2 by positivity))
    (Eventually.of_forall fun x => ?_) x
  by_cases hx : 0 < x
  · exact f_df1 h2 hx
  · simp [fPdf, invgammaPdf, hx]

theorem f_x {d₁ d₂ : ℝ} (h1 : 0 < d₁) (h2 : 0 < d₂) : Tendsto (fun x => fPdf d₁ d₂ x) atTop (𝓝 0) := by
  have hb := beta_pos (show 0 < d₁ / 2 by positivity) (show 0 < d₂ / 2 by positivity)
  have h : Tendsto (fun x : ℝ => 1 / beta (d₁ / 2) (d₂ / 2) * (d₁ / d₂) ^ (d₁ / 2) *
      (d₁ / d₂) ^ (-((d₁ + d₂) / 2)) * x ^ (-(d₂ / 2 + 1))) atTop (𝓝 0) := by
    have := (tendsto_rpow_neg_atTop (show 0 < d₂ / 2 + 1 by positivity)).const_mul
      (1 / beta (d₁ / 2) (d₂ / 2) * (d₁ / d₂) ^ (d₁ / 2) * (d₁ / d₂) ^ (-((d₁ + d₂) / 2)))
    rwa [mul_zero] at this
  refine squeeze_zero' ?_ ?_ h
  · filter_upwards with x
    unfold fPdf; split_ifs <;> positivity
  · filter_upwards [eventually_gt_atTop 0] with x hx
    rw [fPdf, if_pos hx]
    have hr : 0 < d₁ / d₂ := by positivity
    have hle : (1 + d₁ / d₂ * x) ^ (-((d₁ + d₂) / 2)) ≤ (d₁ / d₂ * x) ^ (-((d₁ + d₂) / 2)) :=
      Real.rpow_le_rpow_of_nonpos (by positivity) (by linarith) (by linarith)
    rw [Real.mul_rpow hr.le hx.le] at hle
    calc _ ≤ 1 / beta (d₁ / 2) (d₂ / 2) * (d₁ / d₂) ^ (d₁ / 2) * x ^ (d₁ / 2 - 1) *
          ((d₁ / d₂) ^ (-((d₁ + d₂) / 2)) * x ^ (-((d₁ + d₂) / 2))) := by gcongr
      _ = _ := by
        have : x ^ (-(d₂ / 2 + 1)) = x ^ (d₁ / 2 - 1) * x ^ (-((d₁ + d₂) / 2)) := by
          rw [← Real.rpow_add hx]; congr 1; ring
        rw [this]; ring

/-! ### Weibull, beta, exponential -/

theorem weibull_x {k θ : ℝ} (hk : 0 < k) (hθ : 0 < θ) : Tendsto (fun x => weibullPdf k θ x) atTop (𝓝 0) := by
  have h0 : Tendsto (fun x : ℝ => (x / θ) ^ k) atTop atTop :=
    (tendsto_rpow_atTop hk).comp (tendsto_id.atTop_div_const hθ)
  have h := ((exp_kills ((k - 1) / k) one_pos).comp h0).const_mul (k / θ)
  rw [mul_zero] at h
  refine h.congr' ?_
  filter_upwards [eventually_gt_atTop 0] with x hx
  simp only [Function.comp, weibullPdf, if_pos hx]
  rw [← Real.rpow_mul (by positivity), mul_div_cancel₀ _ hk.ne']
  ring_nf

theorem weibull_scale {k x : ℝ} (hk : 0 < k) : Tendsto (fun θ => weibullPdf k θ x) atTop (𝓝 0) := by
  by_cases hx : 0 < x
  · have h := (tendsto_rpow_neg_atTop hk).const_mul (k * x ^ (k - 1))
    rw [mul_zero] at h
    refine squeeze_zero' ?_ ?_ h
    · filter_upwards [eventually_gt_atTop 0] with θ hθ
      unfold weibullPdf; split_ifs; positivity
    · filter_upwards [eventually_gt_atTop 0] with θ hθ
      rw [weibullPdf, if_pos hx]
      refine (mul_le_of_le_one_right (by positivity) (Real.exp_le_one_iff.2 ?_)).trans (le_of_eq ?_)
      · have : 0 ≤ (x / θ) ^ k := by positivity
        linarith
      · rw [Real.div_rpow hx.le hθ.le, Real.rpow_sub hθ, Real.rpow_one, Real.rpow_neg hθ.le]
        have := (Real.rpow_pos_of_pos hθ k).ne'
        field_simp
  · simp only [weibullPdf, if_neg hx]; exact tendsto_const_nhds

theorem weibullCdf_scale {k x : ℝ} (hk : 0 < k) :
    Tendsto (fun θ : ℝ => 1 - Real.exp (-(x / θ) ^ k)) atTop (𝓝 0) := by
  have h0 : Tendsto (fun θ : ℝ => x / θ) atTop (𝓝 0) := tendsto_const_nhds.div_atTop tendsto_id
  have h1 := (h0.rpow_const (p := k) (Or.inr hk.le)).neg
  rw [Real.zero_rpow hk.ne', neg_zero] at h1
  have := ((Real.continuous_exp.tendsto 0).comp h1).const_sub 1
  rw [Real.exp_zero, sub_self] at this
  exact this

theorem weibullCdf_shape {x θ : ℝ} (hx : 0 < x) (hθ : 0 < θ) :
    Tendsto (fun k : ℝ => 1 - Real.exp (-(x / θ) ^ k)) atTop
      (𝓝 (if 1 < x / θ then 1 else if x / θ = 1 then 1 - Real.exp (-1) else 0)) := by
  split_ifs with h1 h2
  · have h : Tendsto (fun k : ℝ => -(x / θ) ^ k) atTop atBot :=
      tendsto_neg_atTop_atBot.comp (tendsto_rpow_atTop_of_base_gt_one _ h1)
    simpa using (Real.tendsto_exp_atBot.comp h).const_sub 1
  · simp [h2]
  · have h3 : x / θ < 1 := lt_of_le_of_ne (not_lt.1 h1) h2
    have h := (tendsto_rpow_atTop_of_base_lt_one (x / θ) (by linarith [div_pos hx hθ]) h3).neg
    rw [neg_zero] at h
    have := ((Real.continuous_exp.tendsto 0).comp h).const_sub 1
    rw [Real.exp_zero, sub_self] at this
    exact this

/-- `x^a / B(a, b) → 0` for `0 < x < 1` -/
theorem beta_decay {b x : ℝ} (hb : 0 < b) (h0 : 0 < x) (h1 : x < 1) :
    Tendsto (fun a => x ^ (a - 1) / beta a b) atTop (𝓝 0) := by
  have hgb := Real.Gamma_pos_of_pos hb
  have hlog : 0 < -Real.log x := by have := Real.log_neg h0 h1; linarith
  have h := ((gamma_ratio hb.le).mul (exp_kills b hlog)).const_mul (1 / (x * Real.Gamma b))
  rw [mul_zero, mul_zero] at h
  refine h.congr' ?_
  filter_upwards [eventually_gt_atTop 0] with a ha
  have hga := Real.Gamma_pos_of_pos ha
  have hgab := Real.Gamma_pos_of_pos (show 0 < a + b by linarith)
  have e : Real.exp (- -Real.log x * a) = x ^ a := by rw [neg_neg, Real.rpow_def_of_pos h0]
  rw [e, beta, Real.rpow_sub h0, Real.rpow_one]
  have := (Real.rpow_pos_of_pos ha b).ne'
  field_simp

theorem beta_a {b x : ℝ} (hb : 0 < b) (hx : x ∈ Ioo (0 : ℝ) 1) : Tendsto (fun a => betaPdf a b x) atTop (𝓝 0) := by
  have h := (beta_decay hb hx.1 hx.2).mul_const ((1 - x) ^ (b - 1))
  rw [zero_mul] at h
  refine h.congr fun a => ?_
  rw [betaPdf, if_pos (show 0 < x ∧ x < 1 from hx)]; ring

theorem betaPdf_flip (a b x : ℝ) : betaPdf a b x = betaPdf b a (1 - x) := by
  simp only [betaPdf, sub_pos, sub_lt_self_iff, sub_sub_cancel, beta_comm a b]
  simp only [and_comm]
  split_ifs <;> ring

theorem beta_b {a x : ℝ} (ha : 0 < a) (hx : x ∈ Ioo (0 : ℝ) 1) : Tendsto (fun b => betaPdf a b x) atTop (𝓝 0) := by
  simp_rw [betaPdf_flip a]
  exact beta_a ha ⟨by linarith [hx.2], by linarith [hx.1]⟩

theorem betaI_a {b x : ℝ} (hb : 0 < b) (hx : x ∈ Ioo (0 : ℝ) 1) : Tendsto (fun a => betaI a b x) atTop (𝓝 0) := by
  set C := ∫ t in (0 : ℝ)..x, (1 - t) ^ (b - 1) with hC
  have hi : IntervalIntegrable (fun t : ℝ => (1 - t) ^ (b - 1)) volume 0 x := by
    refine ContinuousOn.intervalIntegrable fun t ht => ?_
    rw [uIcc_of_le hx.1.le] at ht
    refine ContinuousAt.continuousWithinAt ?_
    refine ContinuousAt.rpow_const (by fun_prop) (Or.inl ?_)
    have := hx.2
    have := ht.2
    linarith
  have h := (beta_decay hb hx.1 hx.2).mul_const C
  rw [zero_mul] at h
  refine squeeze_zero' ?_ ?_ h
  · filter_upwards [eventually_gt_atTop 0] with a ha using (betaI_mem ha hb (Ioo_subset_Icc_self hx)).1
  · filter_upwards [eventually_ge_atTop 1] with a ha
    have ha0 : 0 < a := by linarith
    have hB := beta_pos ha0 hb
    rw [betaI, div_mul_eq_mul_div]
    gcongr
    rw [hC, ← intervalIntegral.integral_const_mul]
    refine intervalIntegral.integral_mono_on hx.1.le
      (betaInt_intervalIntegrable ha0 hb ⟨le_rfl, zero_le_one⟩ (Ioo_subset_Icc_self hx)) (hi.const_mul _)
      fun t ht => ?_
    have h1 : 0 ≤ (1 - t) ^ (b - 1) := Real.rpow_nonneg (by linarith [hx.2, ht.2]) _
    have h2 := Real.rpow_le_rpow ht.1 ht.2 (show 0 ≤ a - 1 by linarith)
    gcongr

theorem betaCdf_a {b x : ℝ} (hb : 0 < b) :
    Tendsto (fun a => betaCdf a b x) atTop (𝓝 (if x < 1 then 0 else 1)) := by
  unfold betaCdf
  by_cases h0 : x ≤ 0
  · simp [h0, show x < 1 by linarith]
  by_cases h1 : 1 ≤ x
  · simp [h0, h1, not_lt.2 h1]
  push Not at h0 h1
  simp only [not_le.2 h0, not_le.2 h1, if_false, h1, if_true]
  exact betaI_a hb ⟨h0, h1⟩

theorem betaCdf_b {a x : ℝ} (ha : 0 < a) (hx : x ≠ 0) :
    Tendsto (fun b => betaCdf a b x) atTop (𝓝 (if x < 0 then 0 else 1)) := by
  unfold betaCdf
  rcases lt_trichotomy x 0 with h0 | h0 | h0
  · simp [h0, h0.le]
  · exact absurd h0 hx
  by_cases h1 : 1 ≤ x
  · simp [h1, not_lt.2 h0.le, not_le.2 h0]
  push Not at h1
  simp only [not_le.2 h0, not_le.2 h1, if_false, not_lt.2 h0.le]
  have h := (betaI_a ha (x := 1 - x) ⟨by linarith, by linarith⟩).const_sub 1
  rw [sub_zero] at h
  refine h.congr' ?_
  filter_upwards [eventually_gt_atTop 0] with b hb
  have := betaI_symm ha hb (z := x) ⟨h0.le, h1.le⟩
  linarith

theorem exp_rate {x : ℝ} (hx : x ≠ 0) : Tendsto (fun r => expPdf r x) atTop (𝓝 0) := by
  unfold expPdf
  split_ifs with h
  · have h0 : 0 < x := lt_of_le_of_ne h hx.symm
    refine (exp_kills 1 h0).congr fun r => ?_
    rw [Real.rpow_one, show -x * r = -r * x by ring]
  · exact tendsto_const_nhds

theorem exp_x {r : ℝ} (hr : 0 < r) : Tendsto (fun x => expPdf r x) atTop (𝓝 0) := by
  have h : Tendsto (fun x : ℝ => -r * x) atTop atBot := tendsto_id.const_mul_atTop_of_neg (by linarith)
  have h2 := (Real.tendsto_exp_atBot.comp h).const_mul r
  rw [mul_zero] at h2
  refine h2.congr' ?_
  filter_upwards [eventually_ge_atTop 0] with x hx
  simp [expPdf, hx]

theorem expCdf_rate {x : ℝ} :
    Tendsto (fun r : ℝ => if 0 < x then 1 - Real.exp (-r * x) else 0) atTop (𝓝 (if 0 < x then 1 else 0)) := by
  split_ifs with h
  · have h1 : Tendsto (fun r : ℝ => -r * x) atTop atBot := tendsto_neg_atTop_atBot.atBot_mul_const h
    simpa using (Real.tendsto_exp_atBot.comp h1).const_sub 1
  · exact tendsto_const_nhds

/-! ### incomplete gamma -/

theorem gammaP_shape {z : ℝ} (hz : 0 < z) : Tendsto (fun k => gammaP k z) atTop (𝓝 0) := by
  refine squeeze_zero' ?_ ?_ (rpow_div_gamma hz)
  · filter_upwards [eventually_gt_atTop 0] with k hk using gammaP_nonneg hk hz.le
  · filter_upwards [eventually_ge_atTop 1] with k hk
    have hg := Real.Gamma_pos_of_pos (show 0 < k by linarith)
    rw [gammaP]
    gcongr
    have : z ^ k = ∫ _ in (0 : ℝ)..z, z ^ (k - 1) := by
      rw [intervalIntegral.integral_const, smul_eq_mul, sub_zero, Real.rpow_sub hz, Real.rpow_one]
      field_simp
    rw [this]
    refine intervalIntegral.integral_mono_on hz.le (gammaInt_intervalIntegrable (by linarith) le_rfl hz.le)
      intervalIntegrable_const fun t ht => ?_
    have h1 := Real.rpow_le_rpow ht.1 ht.2 (show 0 ≤ k - 1 by linarith)
    have h2 : Real.exp (-t) ≤ 1 := Real.exp_le_one_iff.2 (by linarith [ht.1])
    have h3 : 0 ≤ t ^ (k - 1) := Real.rpow_nonneg ht.1 _
    nlinarith

theorem gammaP_scale {k x : ℝ} (hk : 0 < k) (hx : 0 < x) : Tendsto (fun θ => gammaP k (x / θ)) atTop (𝓝 0) := by
  have h : Tendsto (fun θ : ℝ => x / θ) atTop (𝓝[>] 0) := by
    refine tendsto_nhdsWithin_iff.2 ⟨tendsto_const_nhds.div_atTop tendsto_id, ?_⟩
    filter_upwards [eventually_gt_atTop 0] with θ hθ
    exact div_pos hx hθ
  exact (tendsto_gammaP_zero hk).comp h

/-! ### location-scale distribution functions -/

theorem scale_arg (x mu : ℝ) : Tendsto (fun s : ℝ => (x - mu) / s) atTop (𝓝 0) :=
  tendsto_const_nhds.div_atTop tendsto_id
theorem loc_arg_top (x : ℝ) {s : ℝ} (hs : 0 < s) : Tendsto (fun mu : ℝ => (x - mu) / s) atTop atBot :=
  (tendsto_atBot_add_const_left _ x tendsto_neg_atTop_atBot).atBot_div_const hs
theorem loc_arg_bot (x : ℝ) {s : ℝ} (hs : 0 < s) : Tendsto (fun mu : ℝ => (x - mu) / s) atBot atTop :=
  (tendsto_atTop_add_const_left _ x tendsto_neg_atBot_atTop).atTop_div_const hs

/-- the standard Laplace distribution function -/
noncomputable def lapG (z : ℝ) : ℝ := if z < 0 then 1 / 2 * Real.exp z else 1 - 1 / 2 * Real.exp (-z)

theorem laplaceCdf_eq {mu s x : ℝ} (hs : 0 < s) : laplaceCdf mu s x = lapG ((x - mu) / s) := by
  unfold laplaceCdf lapG
  have : (x - mu) / s < 0 ↔ x < mu := by rw [div_lt_iff₀ hs]; constructor <;> intro h <;> linarith
  simp only [this]

theorem lapG_zero : Tendsto lapG (𝓝 0) (𝓝 (1 / 2)) := by
  have : Continuous lapG := by
    refine Continuous.if (fun a ha => ?_) (by fun_prop) (by fun_prop)
    have h : a = 0 := by
      have hf : frontier {a : ℝ | a < 0} = {0} := frontier_Iio
      rw [hf] at ha; exact ha
    subst h; norm_num
  have h := this.tendsto 0
  have e : lapG 0 = 1 / 2 := by norm_num [lapG]
  rwa [e] at h

theorem lapG_top : Tendsto lapG atTop (𝓝 1) := by
  have h := (Real.tendsto_exp_neg_atTop_nhds_zero.const_mul (1 / 2)).const_sub 1
  rw [mul_zero, sub_zero] at h
  refine h.congr' ?_
  filter_upwards [eventually_ge_atTop 0] with z hz
  simp [lapG, not_lt.2 hz]

theorem lapG_bot : Tendsto lapG atBot (𝓝 0) := by
  have h := Real.tendsto_exp_atBot.const_mul (1 / 2)
  rw [mul_zero] at h
  refine h.congr' ?_
  filter_upwards [eventually_lt_atBot 0] with z hz
  simp [lapG, hz]

noncomputable def logG (z : ℝ) : ℝ := 1 / (1 + Real.exp (-z))
theorem logG_zero : Tendsto logG (𝓝 0) (𝓝 (1 / 2)) := by
  have : ContinuousAt logG 0 := by
    unfold logG
    refine ContinuousAt.div continuousAt_const (by fun_prop) (by positivity)
  have h := this.tendsto
  have e : logG 0 = 1 / 2 := by norm_num [logG]
  rwa [e] at h
theorem logG_top : Tendsto logG atTop (𝓝 1) := by
  have h := (tendsto_const_nhds (x := (1 : ℝ))).div (Real.tendsto_exp_neg_atTop_nhds_zero.const_add 1) (by norm_num)
  rw [add_zero, div_one] at h
  exact h
theorem logG_bot : Tendsto logG atBot (𝓝 0) :=
  tendsto_const_nhds.div_atTop
    (tendsto_atTop_add_const_left _ 1 (Real.tendsto_exp_atTop.comp tendsto_neg_atBot_atTop))

noncomputable def cauG (z : ℝ) : ℝ := 1 / 2 + Real.arctan z / Real.pi
theorem cauG_zero : Tendsto cauG (𝓝 0) (𝓝 (1 / 2)) := by
  have h : Continuous cauG := by unfold cauG; fun_prop
  have h := h.tendsto 0
  have e : cauG 0 = 1 / 2 := by norm_num [cauG]
  rwa [e] at h
theorem cauG_top : Tendsto cauG atTop (𝓝 1) := by
  have h := (tendsto_nhds_of_tendsto_nhdsWithin Real.tendsto_arctan_atTop).div_const Real.pi |>.const_add (1 / 2)
  have e : (1 / 2 + Real.pi / 2 / Real.pi : ℝ) = 1 := by have := Real.pi_ne_zero; field_simp; norm_num
  rwa [e] at h
theorem cauG_bot : Tendsto cauG atBot (𝓝 0) := by
  have h := (tendsto_nhds_of_tendsto_nhdsWithin Real.tendsto_arctan_atBot).div_const Real.pi |>.const_add (1 / 2)
  have e : (1 / 2 + -(Real.pi / 2) / Real.pi : ℝ) = 0 := by have := Real.pi_ne_zero; field_simp; norm_num
  rwa [e] at h

theorem Phi_zero : Tendsto Phi (𝓝 0) (𝓝 (1 / 2)) := by
  have h := (hasDerivAt_Phi 0).continuousAt.tendsto
  have e : Phi 0 = 1 / 2 := by
    have := Phi_neg 0
    rw [neg_zero] at this
    linarith
  rwa [e] at h

end Stats.Lim

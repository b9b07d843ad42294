import Verif.Lemmas.RealCdf2
import Verif.Spec.Densities
import Mathlib.Analysis.SpecialFunctions.Gamma.BohrMollerup
import Mathlib.Analysis.SpecialFunctions.Complex.LogBounds
import Mathlib.MeasureTheory.Integral.DominatedConvergence

/-! # Limits of the textbook densities and distribution functions at infinite parameters -/

set_option linter.unusedSectionVars false
open Filter Topology MeasureTheory Set

namespace Stats.Lim
open Stats.Spec

/-! ### Growth of the Gamma function -/

/-- `Γ(k) ≥ c^(k-1) e^(-c)` for `k ≥ 1`: keep the part of the integral beyond `c`. -/
theorem gamma_lower {k c : ℝ} (hk : 1 ≤ k) (hc : 0 < c) : c ^ (k - 1) * Real.exp (-c) ≤ Real.Gamma k := by
  have hint := Real.GammaIntegral_convergent (s := k) (by linarith)
  rw [Real.Gamma_eq_integral (by linarith)]
  have h1 : ∫ t in Ioi c, Real.exp (-t) * t ^ (k - 1) ≤ ∫ t in Ioi (0 : ℝ), Real.exp (-t) * t ^ (k - 1) := by
    refine setIntegral_mono_set hint ?_ (Ioi_subset_Ioi hc.le).eventuallyLE
    filter_upwards [ae_restrict_mem measurableSet_Ioi] with t ht
    have : (0 : ℝ) < t := ht
    positivity
  refine le_trans ?_ h1
  have h2 : ∫ t in Ioi c, Real.exp (-t) * c ^ (k - 1) ≤ ∫ t in Ioi c, Real.exp (-t) * t ^ (k - 1) := by
    refine setIntegral_mono_on ((integrableOn_exp_neg_Ioi c).mul_const _) (hint.mono_set (Ioi_subset_Ioi hc.le))
      measurableSet_Ioi fun t ht => ?_
    have ht : c < t := ht
    have := Real.rpow_le_rpow hc.le ht.le (by linarith : (0 : ℝ) ≤ k - 1)
    have := (Real.exp_pos (-t)).le
    gcongr
  rw [integral_mul_const, integral_exp_neg_Ioi] at h2
  linarith

theorem rpow_div_gamma {y : ℝ} (hy : 0 < y) : Tendsto (fun k : ℝ => y ^ k / Real.Gamma k) atTop (𝓝 0) := by
  set c := 2 * y with hc
  have hc0 : 0 < c := by positivity
  have hb : Tendsto (fun k : ℝ => c * Real.exp c * (1 / 2 : ℝ) ^ k) atTop (𝓝 0) := by
    simpa using (tendsto_rpow_atTop_of_base_lt_one (1 / 2 : ℝ) (by norm_num) (by norm_num)).const_mul
      (c * Real.exp c)
  refine squeeze_zero' ?_ ?_ hb
  · filter_upwards [eventually_gt_atTop 0] with k hk
    have := Real.Gamma_pos_of_pos hk
    positivity
  · filter_upwards [eventually_ge_atTop 1] with k hk
    have h1 := gamma_lower hk hc0
    have h2 : 0 < c ^ (k - 1) * Real.exp (-c) := by positivity
    calc y ^ k / Real.Gamma k ≤ y ^ k / (c ^ (k - 1) * Real.exp (-c)) := by gcongr
      _ = c * Real.exp c * (1 / 2 : ℝ) ^ k := by
        rw [Real.rpow_sub hc0, Real.rpow_one, Real.exp_neg, hc, Real.mul_rpow (by norm_num) hy.le,
          Real.div_rpow (by norm_num) (by norm_num), Real.one_rpow]
        have := (Real.rpow_pos_of_pos hy k).ne'
        field_simp

/-- `Γ(a + s) ~ Γ(a) a^s` for `0 ≤ s ≤ 1`, from log-convexity. -/
theorem gamma_ratio_aux {s : ℝ} (h0 : 0 ≤ s) (h1 : s ≤ 1) :
    Tendsto (fun a : ℝ => Real.Gamma (a + s) / (Real.Gamma a * a ^ s)) atTop (𝓝 1) := by
  have up : ∀ a : ℝ, 0 < a → ∀ s : ℝ, 0 ≤ s → s ≤ 1 → Real.Gamma (a + s) ≤ Real.Gamma a * a ^ s := by
    intro a ha s h0 h1
    rcases h0.eq_or_lt with rfl | h0
    · simp
    rcases h1.eq_or_lt with rfl | h1
    · rw [Real.Gamma_add_one ha.ne', Real.rpow_one, mul_comm]
    have := Real.Gamma_mul_add_mul_le_rpow_Gamma_mul_rpow_Gamma ha (by linarith : 0 < a + 1)
      (by linarith : 0 < 1 - s) h0 (by ring)
    have hg := Real.Gamma_pos_of_pos ha
    rw [show (1 - s) * a + s * (a + 1) = a + s by ring, Real.Gamma_add_one ha.ne', Real.mul_rpow ha.le hg.le,
      mul_left_comm, ← Real.rpow_add hg] at this
    simpa [mul_comm] using this
  have lim : Tendsto (fun a : ℝ => (a / (a + s)) ^ (1 - s)) atTop (𝓝 1) := by
    have : Tendsto (fun a : ℝ => a / (a + s)) atTop (𝓝 1) := by
      have h : Tendsto (fun a : ℝ => 1 - s / (a + s)) atTop (𝓝 (1 - 0)) :=
        tendsto_const_nhds.sub (tendsto_const_nhds.div_atTop (tendsto_atTop_add_const_right _ s tendsto_id))
      rw [sub_zero] at h
      refine h.congr' ?_
      filter_upwards [eventually_gt_atTop 0] with a ha
      field_simp
      ring
    simpa using this.rpow_const (p := 1 - s) (Or.inl one_ne_zero)
  refine tendsto_of_tendsto_of_tendsto_of_le_of_le' lim tendsto_const_nhds ?_ ?_
  · filter_upwards [eventually_gt_atTop 0] with a ha
    have hg := Real.Gamma_pos_of_pos ha
    have has : 0 < a + s := by linarith
    have h := up (a + s) has (1 - s) (by linarith) (by linarith)
    rw [show a + s + (1 - s) = a + 1 by ring, Real.Gamma_add_one ha.ne'] at h
    rw [Real.div_rpow ha.le has.le, div_le_div_iff₀ (by positivity) (by positivity)]
    calc a ^ (1 - s) * (Real.Gamma a * a ^ s) = a ^ (1 - s) * a ^ s * Real.Gamma a := by ring
      _ = a * Real.Gamma a := by rw [← Real.rpow_add ha]; simp
      _ ≤ _ := h
  · filter_upwards [eventually_gt_atTop 0] with a ha
    have hg := Real.Gamma_pos_of_pos ha
    rw [div_le_one (by positivity)]
    exact up a ha s h0 h1

/-- `Γ(a + s) ~ Γ(a) a^s` for every `s ≥ 0`. -/
theorem gamma_ratio {s : ℝ} (h0 : 0 ≤ s) :
    Tendsto (fun a : ℝ => Real.Gamma (a + s) / (Real.Gamma a * a ^ s)) atTop (𝓝 1) := by
  obtain ⟨n, hn⟩ := exists_nat_ge s
  induction n generalizing s with
  | zero => exact gamma_ratio_aux h0 (by simp at hn; linarith)
  | succ n ih =>
    rcases le_or_gt s 1 with h1 | h1
    · exact gamma_ratio_aux h0 h1
    have h := ih (s := s - 1) (by linarith) (by push_cast at hn; linarith)
    have h2 : Tendsto (fun a : ℝ => 1 + (s - 1) / a) atTop (𝓝 (1 + 0)) :=
      tendsto_const_nhds.add (tendsto_const_nhds.div_atTop tendsto_id)
    have h3 := h.mul h2
    simp only [add_zero, mul_one] at h3
    refine h3.congr' ?_
    filter_upwards [eventually_gt_atTop 0] with a ha
    have hg := (Real.Gamma_pos_of_pos ha).ne'
    rw [show a + s = a + (s - 1) + 1 by ring, Real.Gamma_add_one (by linarith), Real.rpow_sub ha, Real.rpow_one]
    have := (Real.rpow_pos_of_pos ha s).ne'
    field_simp

/-! ### Scheffé: convergence of densities gives convergence of distribution functions -/

theorem scheffe {F : ℝ → ℝ → ℝ} {f : ℝ → ℝ → ℝ} {G g : ℝ → ℝ}
    (hF : ∀ᶠ t in atTop, IsCdf (F t) (f t)) (hG : IsCdf G g)
    (hlim : ∀ᵐ x : ℝ, Tendsto (fun t => f t x) atTop (𝓝 (g x))) (x : ℝ) :
    Tendsto (fun t => F t x) atTop (𝓝 (G x)) := by
  have hd : Tendsto (fun t => ∫ y, max (g y - f t y) 0) atTop (𝓝 (∫ _ : ℝ, (0 : ℝ))) := by
    refine tendsto_integral_filter_of_dominated_convergence (fun y => |g y|) ?_ ?_ hG.integrable.abs ?_
    · filter_upwards [hF] with t ht
      exact ((hG.integrable.sub ht.integrable).sup (integrable_zero _ _ _)).aestronglyMeasurable
    · filter_upwards [hF] with t ht
      filter_upwards [ht.nonneg] with y hy
      rw [Real.norm_of_nonneg (le_max_right _ _)]
      exact max_le (by linarith [le_abs_self (g y)]) (abs_nonneg _)
    · filter_upwards [hlim] with y hy
      have := (tendsto_const_nhds (x := g y)).sub hy
      rw [sub_self] at this
      simpa using this.max (tendsto_const_nhds (x := (0 : ℝ)))
  rw [integral_zero] at hd
  rw [tendsto_iff_norm_sub_tendsto_zero]
  have hd2 : Tendsto (fun t => 2 * ∫ y, max (g y - f t y) 0) atTop (𝓝 0) := by simpa using hd.const_mul 2
  refine squeeze_zero' (Eventually.of_forall fun t => norm_nonneg _) ?_ hd2
  filter_upwards [hF] with t ht
  have hi : Integrable (fun y => f t y - g y) := ht.integrable.sub hG.integrable
  have hm : Integrable (fun y => max (g y - f t y) 0) :=
    (hG.integrable.sub ht.integrable).sup (integrable_zero _ _ _)
  have e1 : F t x - G x = ∫ y in Iic x, (f t y - g y) := by
    rw [integral_sub ht.integrable.integrableOn hG.integrable.integrableOn, ht.running, hG.running]
  have e2 : ∫ y, |f t y - g y| = 2 * ∫ y, max (g y - f t y) 0 := by
    have : ∀ y, |f t y - g y| = 2 * max (g y - f t y) 0 + (f t y - g y) := by
      intro y
      rcases le_total (f t y) (g y) with h | h
      · rw [abs_of_nonpos (by linarith), max_eq_left (by linarith)]; ring
      · rw [abs_of_nonneg (by linarith), max_eq_right (by linarith)]; ring
    simp_rw [this]
    rw [integral_add (hm.const_mul 2) hi, integral_const_mul, integral_sub ht.integrable hG.integrable, ht.total,
      hG.total]
    ring
  rw [e1, ← e2]
  refine (norm_integral_le_integral_norm _).trans ?_
  exact setIntegral_le_integral hi.abs (Eventually.of_forall fun y => abs_nonneg _)

/-- Quantiles of converging distribution functions converge to the quantile of the limit, when the limit is
strictly increasing around it. -/
theorem quantile_lim {F : ℝ → ℝ → ℝ} {G : ℝ → ℝ} {q : ℝ → ℝ} {u r : ℝ} (hF : ∀ᶠ t in atTop, Monotone (F t))
    (hlim : ∀ x, x ≠ r → Tendsto (fun t => F t x) atTop (𝓝 (G x))) (hq : ∀ᶠ t in atTop, F t (q t) = u)
    (hl : ∀ x < r, G x < u) (hr : ∀ x > r, u < G x) : Tendsto q atTop (𝓝 r) := by
  rw [tendsto_order]
  refine ⟨fun a ha => ?_, fun a ha => ?_⟩
  · filter_upwards [hF, hq, (hlim a ha.ne).eventually_lt_const (hl a ha)] with t h1 h2 h3
    by_contra h
    have := h1 (not_lt.1 h)
    linarith
  · filter_upwards [hF, hq, (hlim a ha.ne').eventually_const_lt (hr a ha)] with t h1 h2 h3
    by_contra h
    have := h1 (not_lt.1 h)
    linarith

/-! ### Location-scale families -/

theorem abs_sub_top (m : ℝ) : Tendsto (fun x : ℝ => |x - m|) atTop atTop :=
  tendsto_abs_atTop_atTop.comp (tendsto_atTop_add_const_right _ (-m) tendsto_id)
theorem abs_sub_bot (m : ℝ) : Tendsto (fun x : ℝ => |x - m|) atBot atTop :=
  tendsto_abs_atBot_atTop.comp (tendsto_atBot_add_const_right _ (-m) tendsto_id)
theorem abs_sub_top' (x : ℝ) : Tendsto (fun m : ℝ => |x - m|) atTop atTop := by
  simp_rw [abs_sub_comm x]; exact abs_sub_top x
theorem abs_sub_bot' (x : ℝ) : Tendsto (fun m : ℝ => |x - m|) atBot atTop := by
  simp_rw [abs_sub_comm x]; exact abs_sub_bot x

/-- In the location families the density is a function of `|x - mu|`: one limit serves `x` and `mu`, both ends. -/
theorem norm_far {l : Filter ℝ} {u v : ℝ → ℝ} (h : Tendsto (fun t => |u t - v t|) l atTop) {s : ℝ} (hs : 0 < s) :
    Tendsto (fun t => normPdf (v t) s (u t)) l (𝓝 0) := by
  have h1 : Tendsto (fun t => -((u t - v t) ^ 2) / (2 * s ^ 2)) l atBot := by
    have := ((tendsto_pow_atTop two_ne_zero).comp h).const_mul_atTop (show 0 < 1 / (2 * s ^ 2) by positivity)
    refine (tendsto_neg_atTop_atBot.comp this).congr fun t => ?_
    simp [sq_abs]; ring
  simpa [normPdf] using (Real.tendsto_exp_atBot.comp h1).const_mul (1 / (√(2 * Real.pi) * s))

theorem norm_wide (mu x : ℝ) : Tendsto (fun s => normPdf mu s x) atTop (𝓝 0) := by
  have h : Tendsto (fun s : ℝ => 1 / (√(2 * Real.pi) * s)) atTop (𝓝 0) :=
    tendsto_const_nhds.div_atTop (tendsto_id.const_mul_atTop (by positivity))
  refine squeeze_zero' ?_ ?_ h
  · filter_upwards [eventually_gt_atTop 0] with s hs using (normPdf_pos' hs x).le
  · filter_upwards [eventually_gt_atTop 0] with s hs
    refine mul_le_of_le_one_right (by positivity) (Real.exp_le_one_iff.2 ?_)
    rw [neg_div]
    have : 0 ≤ (x - mu) ^ 2 / (2 * s ^ 2) := by positivity
    linarith

theorem cauchy_far {l : Filter ℝ} {u v : ℝ → ℝ} (h : Tendsto (fun t => |u t - v t|) l atTop) {s : ℝ} (hs : 0 < s) :
    Tendsto (fun t => cauchyPdf (v t) s (u t)) l (𝓝 0) := by
  have hpi := Real.pi_pos
  have h1 : Tendsto (fun t => Real.pi * s * (1 + ((u t - v t) / s) ^ 2)) l atTop := by
    have := ((tendsto_pow_atTop two_ne_zero).comp h).const_mul_atTop (show 0 < 1 / s ^ 2 by positivity)
    refine ((tendsto_atTop_add_const_left _ 1 this).const_mul_atTop (show 0 < Real.pi * s by positivity)).congr
      fun t => ?_
    simp only [Function.comp, sq_abs, div_pow]; ring
  exact tendsto_const_nhds.div_atTop h1

theorem cauchy_wide (mu x : ℝ) : Tendsto (fun s => cauchyPdf mu s x) atTop (𝓝 0) := by
  have hpi := Real.pi_pos
  have h : Tendsto (fun s : ℝ => 1 / (Real.pi * s)) atTop (𝓝 0) :=
    tendsto_const_nhds.div_atTop (tendsto_id.const_mul_atTop hpi)
  refine squeeze_zero' ?_ ?_ h
  · filter_upwards [eventually_gt_atTop 0] with s hs
    unfold cauchyPdf; positivity
  · filter_upwards [eventually_gt_atTop 0] with s hs
    unfold cauchyPdf
    have : 0 ≤ ((x - mu) / s) ^ 2 := by positivity
    exact one_div_le_one_div_of_le (by positivity) (le_mul_of_one_le_right (by positivity) (by linarith))

theorem laplace_far {l : Filter ℝ} {u v : ℝ → ℝ} (h : Tendsto (fun t => |u t - v t|) l atTop) {s : ℝ} (hs : 0 < s) :
    Tendsto (fun t => laplacePdf (v t) s (u t)) l (𝓝 0) := by
  have h1 : Tendsto (fun t => -|u t - v t| / s) l atBot :=
    (tendsto_neg_atTop_atBot.comp h).atBot_div_const hs
  simpa [laplacePdf] using (Real.tendsto_exp_atBot.comp h1).const_mul (1 / (2 * s))

theorem laplace_wide (mu x : ℝ) : Tendsto (fun s => laplacePdf mu s x) atTop (𝓝 0) := by
  have h : Tendsto (fun s : ℝ => 1 / (2 * s)) atTop (𝓝 0) :=
    tendsto_const_nhds.div_atTop (tendsto_id.const_mul_atTop (by norm_num))
  refine squeeze_zero' ?_ ?_ h
  · filter_upwards [eventually_gt_atTop 0] with s hs
    unfold laplacePdf; positivity
  · filter_upwards [eventually_gt_atTop 0] with s hs
    refine mul_le_of_le_one_right (by positivity) (Real.exp_le_one_iff.2 ?_)
    rw [neg_div]
    have : 0 ≤ |x - mu| / s := by positivity
    linarith

theorem logis_bound {s : ℝ} (hs : 0 < s) (mu x : ℝ) : logisPdf mu s x ≤ 1 / s * Real.exp (-(|x - mu| / s)) := by
  have key : ∀ z : ℝ, Real.exp (-z) / (s * (1 + Real.exp (-z)) ^ 2) ≤ 1 / s * Real.exp (-|z|) := by
    intro z
    have he := Real.exp_pos (-z)
    rw [one_div_mul_eq_div, div_le_div_iff₀ (by positivity) hs]
    rcases le_total 0 z with h | h
    · rw [abs_of_nonneg h]
      have : Real.exp (-z) * s * 1 ≤ Real.exp (-z) * s * (1 + Real.exp (-z)) ^ 2 := by
        gcongr; nlinarith
      linarith
    · rw [abs_of_nonpos h, neg_neg]
      have h1 : Real.exp z * Real.exp (-z) = 1 := by rw [← Real.exp_add]; simp
      have h2 : (Real.exp (-z)) * s ≤ Real.exp z * (s * (Real.exp (-z)) ^ 2) := by
        apply le_of_eq
        calc Real.exp (-z) * s = (Real.exp z * Real.exp (-z)) * (s * Real.exp (-z)) := by rw [h1]; ring
          _ = _ := by ring
      refine h2.trans ?_
      have := Real.exp_pos z
      gcongr; linarith
  have := key ((x - mu) / s)
  rwa [abs_div, abs_of_pos hs] at this

theorem logis_far {l : Filter ℝ} {u v : ℝ → ℝ} (h : Tendsto (fun t => |u t - v t|) l atTop) {s : ℝ} (hs : 0 < s) :
    Tendsto (fun t => logisPdf (v t) s (u t)) l (𝓝 0) := by
  have h1 : Tendsto (fun t => -(|u t - v t| / s)) l atBot :=
    tendsto_neg_atTop_atBot.comp (h.atTop_div_const hs)
  have h2 : Tendsto (fun t => 1 / s * Real.exp (-(|u t - v t| / s))) l (𝓝 0) := by
    simpa using (Real.tendsto_exp_atBot.comp h1).const_mul (1 / s)
  refine squeeze_zero (fun t => ?_) (fun t => logis_bound hs _ _) h2
  unfold logisPdf; positivity

theorem logis_wide (mu x : ℝ) : Tendsto (fun s => logisPdf mu s x) atTop (𝓝 0) := by
  have h : Tendsto (fun s : ℝ => 1 / s) atTop (𝓝 0) := tendsto_const_nhds.div_atTop tendsto_id
  refine squeeze_zero' ?_ ?_ h
  · filter_upwards [eventually_gt_atTop 0] with s hs
    unfold logisPdf; positivity
  · filter_upwards [eventually_gt_atTop 0] with s hs
    refine (logis_bound hs mu x).trans (mul_le_of_le_one_right (by positivity) (Real.exp_le_one_iff.2 ?_))
    have : 0 ≤ |x - mu| / s := by positivity
    linarith

theorem lnorm_eq {mu s x : ℝ} (hx : 0 < x) : lnormPdf mu s x = 1 / x * normPdf mu s (Real.log x) := by
  rw [lnormPdf, if_pos hx, normPdf]; ring

theorem lnorm_x (mu : ℝ) {s : ℝ} (hs : 0 < s) : Tendsto (fun x => lnormPdf mu s x) atTop (𝓝 0) := by
  have h1 : Tendsto (fun x : ℝ => 1 / x) atTop (𝓝 0) := tendsto_const_nhds.div_atTop tendsto_id
  have h2 := norm_far (u := Real.log) (v := fun _ => mu) ((abs_sub_top mu).comp Real.tendsto_log_atTop) hs
  have h3 := h1.mul h2
  rw [mul_zero] at h3
  refine h3.congr' ?_
  filter_upwards [eventually_gt_atTop 0] with x hx using (lnorm_eq hx).symm

/-! ### Gamma family -/

theorem exp_kills (c : ℝ) {b : ℝ} (hb : 0 < b) : Tendsto (fun x : ℝ => x ^ c * Real.exp (-b * x)) atTop (𝓝 0) :=
  tendsto_rpow_mul_exp_neg_mul_atTop_nhds_zero c b hb

theorem gamma_x {k θ : ℝ} (hθ : 0 < θ) : Tendsto (fun x => gammaPdf k θ x) atTop (𝓝 0) := by
  have h := (exp_kills (k - 1) (show 0 < 1 / θ by positivity)).div_const (θ ^ k * Real.Gamma k)
  rw [zero_div] at h
  refine h.congr' ?_
  filter_upwards [eventually_gt_atTop 0] with x hx
  rw [gammaPdf, if_pos hx]; congr 3; ring

theorem gamma_scale {k x : ℝ} (hk : 0 < k) : Tendsto (fun θ => gammaPdf k θ x) atTop (𝓝 0) := by
  have hg := Real.Gamma_pos_of_pos hk
  by_cases hx : 0 < x
  · simp only [gammaPdf, if_pos hx]
    have h1 : Tendsto (fun θ : ℝ => Real.exp (-x / θ)) atTop (𝓝 (Real.exp 0)) :=
      (Real.continuous_exp.tendsto 0).comp (tendsto_const_nhds.div_atTop tendsto_id)
    exact (h1.const_mul (x ^ (k - 1))).div_atTop ((tendsto_rpow_atTop hk).atTop_mul_const hg)
  · simp only [gammaPdf, if_neg hx]; exact tendsto_const_nhds

theorem gamma_shape {θ x : ℝ} (hθ : 0 < θ) : Tendsto (fun k => gammaPdf k θ x) atTop (𝓝 0) := by
  by_cases hx : 0 < x
  · have h := (rpow_div_gamma (show 0 < x / θ by positivity)).const_mul (Real.exp (-x / θ) / x)
    rw [mul_zero] at h
    refine h.congr' ?_
    filter_upwards [eventually_gt_atTop 0] with k hk
    have hg := (Real.Gamma_pos_of_pos hk).ne'
    have := (Real.rpow_pos_of_pos hθ k).ne'
    rw [gammaPdf, if_pos hx, Real.rpow_sub hx, Real.rpow_one, Real.div_rpow hx.le hθ.le]
    field_simp
  · simp only [gammaPdf, if_neg hx]; exact tendsto_const_nhds

theorem invgamma_x {α β : ℝ} (hα : 0 < α) : Tendsto (fun x => invgammaPdf α β x) atTop (𝓝 0) := by
  have h1 : Tendsto (fun x : ℝ => Real.exp (-β / x)) atTop (𝓝 (Real.exp 0)) :=
    (Real.continuous_exp.tendsto 0).comp (tendsto_const_nhds.div_atTop tendsto_id)
  have h2 := ((tendsto_rpow_neg_atTop (show 0 < α + 1 by linarith)).const_mul (β ^ α / Real.Gamma α)).mul h1
  rw [mul_zero, zero_mul] at h2
  refine h2.congr' ?_
  filter_upwards [eventually_gt_atTop 0] with x hx
  rw [invgammaPdf, if_pos hx]; congr 3; ring

theorem invgamma_shape {β x : ℝ} (hβ : 0 < β) : Tendsto (fun α => invgammaPdf α β x) atTop (𝓝 0) := by
  by_cases hx : 0 < x
  · have h := (rpow_div_gamma (show 0 < β / x by positivity)).const_mul (Real.exp (-β / x) / x)
    rw [mul_zero] at h
    refine h.congr' ?_
    filter_upwards [eventually_gt_atTop 0] with α hα
    have hg := (Real.Gamma_pos_of_pos hα).ne'
    have := (Real.rpow_pos_of_pos hx α).ne'
    rw [invgammaPdf, if_pos hx, Real.rpow_sub hx, Real.rpow_one, Real.div_rpow hβ.le hx.le, Real.rpow_neg hx.le]
    field_simp
  · simp only [invgammaPdf, if_neg hx]; exact tendsto_const_nhds

theorem invgamma_rate (α x : ℝ) : Tendsto (fun β => invgammaPdf α β x) atTop (𝓝 0) := by
  by_cases hx : 0 < x
  · have h := (exp_kills α (show 0 < 1 / x by positivity)).const_mul (x ^ (-α - 1) / Real.Gamma α)
    rw [mul_zero] at h
    refine h.congr fun β => ?_
    rw [invgammaPdf, if_pos hx, show -(1 / x) * β = -β / x by ring]; ring
  · simp only [invgammaPdf, if_neg hx]; exact tendsto_const_nhds

end Stats.Lim

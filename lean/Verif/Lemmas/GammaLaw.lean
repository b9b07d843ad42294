import Verif.Lemmas.LawDens
import Verif.Lemmas.LawLoop
import Verif.Lemmas.RealCdf2

/-! The mathematics of the gamma generator: the law of the accepted value, and the boost for shapes up to 1. -/

open MeasureTheory Set
open scoped ENNReal

namespace Stats
open Spec

/-- the accepted pairs (normal variate, uniform variate) -/
def gammaAcc (d c : ℝ) : Set (ℝ × ℝ) := {p | -1 / c < p.1 ∧ Real.log p.2 < gammaCheck d c p.1}

theorem measurable_gammaCheck (d c : ℝ) : Measurable (gammaCheck d c) := by
  unfold gammaCheck; fun_prop

theorem measurableSet_gammaAcc (d c : ℝ) : MeasurableSet (gammaAcc d c) :=
  (measurableSet_lt measurable_const measurable_fst).inter
    (measurableSet_lt (Real.measurable_log.comp measurable_snd) ((measurable_gammaCheck d c).comp measurable_fst))

/-- the acceptance test compares with a number that is at most 0 -/
theorem gammaCheck_nonpos {d c z : ℝ} (hd : 0 ≤ d) (hc : 0 < c) (h : d * (9 * c ^ 2) = 1) (hz : -1 / c < z) :
    gammaCheck d c z ≤ 0 := by
  have hx : 0 < 1 + c * z := by rw [div_lt_iff₀ hc] at hz; linarith
  set x := 1 + c * z with hxdef
  have key : 9 / 2 * (x - 1) ^ 2 + 1 - x ^ 3 + 3 * Real.log x ≤ 0 := by
    -- the function is 0 at 1, increases before and decreases after
    let F : ℝ → ℝ := fun x => 9 / 2 * (x - 1) ^ 2 + 1 - x ^ 3 + 3 * Real.log x
    have hF : ∀ y, 0 < y → HasDerivAt F (-(3 * (y - 1) ^ 3 / y)) y := by
      intro y hy
      have h1 : HasDerivAt (fun y : ℝ => 9 / 2 * (y - 1) ^ 2) (9 / 2 * (2 * (y - 1))) y := by
        have := (((hasDerivAt_id y).sub_const 1).pow 2).const_mul (9 / 2)
        simpa using this
      have h3 : HasDerivAt (fun y : ℝ => y ^ 3) (3 * y ^ 2) y := by simpa using hasDerivAt_pow 3 y
      have := ((h1.add_const 1).sub h3).add ((Real.hasDerivAt_log hy.ne').const_mul 3)
      refine this.congr_deriv ?_
      field_simp
      ring
    have h1 : F 1 = 0 := by simp [F]
    show F x ≤ 0
    rw [← h1]
    rcases le_total x 1 with hx1 | hx1
    · have : MonotoneOn F (Icc x 1) := by
        refine monotoneOn_of_deriv_nonneg (convex_Icc x 1)
          (fun y hy => (hF y (hx.trans_le hy.1)).continuousAt.continuousWithinAt)
          (fun y hy => (hF y (hx.trans_le (interior_subset hy).1)).differentiableAt.differentiableWithinAt) ?_
        intro y hy
        rw [interior_Icc] at hy
        have hy0 : 0 < y := hx.trans hy.1
        rw [(hF y hy0).deriv, neg_nonneg]
        refine div_nonpos_of_nonpos_of_nonneg ?_ hy0.le
        have : (y - 1) ^ 3 ≤ 0 := Odd.pow_nonpos (by decide) (by linarith [hy.2])
        linarith
      exact this ⟨le_rfl, hx1⟩ ⟨hx1, le_rfl⟩ hx1
    · have : AntitoneOn F (Icc 1 x) := by
        refine antitoneOn_of_deriv_nonpos (convex_Icc 1 x)
          (fun y hy => (hF y (one_pos.trans_le hy.1)).continuousAt.continuousWithinAt)
          (fun y hy => (hF y (one_pos.trans_le (interior_subset hy).1)).differentiableAt.differentiableWithinAt) ?_
        intro y hy
        rw [interior_Icc] at hy
        have hy0 : 0 < y := one_pos.trans hy.1
        rw [(hF y hy0).deriv, neg_nonpos]
        have : 0 ≤ (y - 1) ^ 3 := pow_nonneg (by linarith [hy.1]) 3
        positivity
      exact this ⟨le_rfl, hx1⟩ ⟨hx1, le_rfl⟩ hx1
  have e : gammaCheck d c z = d * (9 / 2 * (x - 1) ^ 2 + 1 - x ^ 3 + 3 * Real.log x) := by
    have : (1 : ℝ) / 2 * z * z = d * (9 / 2 * (x - 1) ^ 2) := by
      rw [hxdef]; linear_combination (-(1 / 2) * z ^ 2) * h
    rw [gammaCheck, ← hxdef, this, Real.log_pow]; push_cast; ring
  rw [e]
  exact mul_nonpos_of_nonneg_of_nonpos hd key

/-- the probability that a uniform variate passes the test -/
theorem volume_log_lt {g : ℝ} (hg : g ≤ 0) :
    (volume.restrict (Ioo (0 : ℝ) 1)) {u | Real.log u < g} = ENNReal.ofReal (Real.exp g) := by
  have hm : MeasurableSet {u : ℝ | Real.log u < g} := measurableSet_lt Real.measurable_log measurable_const
  rw [Measure.restrict_apply hm]
  have : {u : ℝ | Real.log u < g} ∩ Ioo 0 1 = Ioo 0 (Real.exp g) := by
    ext u
    simp only [mem_inter_iff, mem_ofPred_eq, mem_Ioo]
    constructor
    · rintro ⟨h, h0, h1⟩; exact ⟨h0, (Real.log_lt_iff_lt_exp h0).1 h⟩
    · rintro ⟨h0, h⟩; exact ⟨(Real.log_lt_iff_lt_exp h0).2 h, h0, h.trans_le (Real.exp_le_one_iff.2 hg)⟩
  rw [this, Real.volume_Ioo, sub_zero]

/-- the law of the accepted value, without normalisation, when the uniform variate has the law `E` -/
noncomputable def gammaSubOf (E : Measure ℝ) (d c : ℝ) : Measure ℝ :=
  (((densLaw (normPdf 0 1)).prod E).restrict (gammaAcc d c)).map fun p => (1 + c * p.1) ^ 3

/-- the law of the accepted value, without normalisation -/
noncomputable def gammaSub (d c : ℝ) : Measure ℝ :=
  (((densLaw (normPdf 0 1)).prod (volume.restrict (Ioo (0 : ℝ) 1))).restrict (gammaAcc d c)).map
    fun p => (1 + c * p.1) ^ 3

theorem measurable_normPdf (mu sigma : ℝ) : Measurable (normPdf mu sigma) := by unfold normPdf; fun_prop

theorem gammaSub_apply {d c : ℝ} (hd : 0 ≤ d) (hc : 0 < c) (h : d * (9 * c ^ 2) = 1) {B : Set ℝ} (hB : MeasurableSet B) :
    gammaSub d c B = ∫⁻ z in Ioi (-1 / c), ((fun z => (1 + c * z) ^ 3) ⁻¹' B).indicator
      (fun z => ENNReal.ofReal (normPdf 0 1 z * Real.exp (gammaCheck d c z))) z := by
  have hV : Measurable fun z : ℝ => (1 + c * z) ^ 3 := by fun_prop
  have hV2 : Measurable fun p : ℝ × ℝ => (1 + c * p.1) ^ 3 := hV.comp measurable_fst
  rw [gammaSub, Measure.map_apply hV2 hB, Measure.restrict_apply (hV2 hB),
    Measure.prod_apply ((hV2 hB).inter (measurableSet_gammaAcc d c)), densLaw,
    lintegral_withDensity_eq_lintegral_mul _ (measurable_normPdf 0 1).ennreal_ofReal
      (measurable_measure_prodMk_left ((hV2 hB).inter (measurableSet_gammaAcc d c))),
    ← lintegral_indicator measurableSet_Ioi]
  congr 1; funext z
  simp only [Pi.mul_apply]
  by_cases hz : -1 / c < z
  · rw [indicator_of_mem (show z ∈ Ioi (-1 / c) from hz)]
    by_cases hb : (1 + c * z) ^ 3 ∈ B
    · rw [indicator_of_mem (show z ∈ (fun z => (1 + c * z) ^ 3) ⁻¹' B from hb)]
      have : Prod.mk z ⁻¹' ((fun p : ℝ × ℝ => (1 + c * p.1) ^ 3) ⁻¹' B ∩ gammaAcc d c) =
          {u | Real.log u < gammaCheck d c z} := by
        ext u; simp [gammaAcc, hz, hb]
      rw [this, volume_log_lt (gammaCheck_nonpos hd hc h hz), ← ENNReal.ofReal_mul]
      rw [normPdf]; positivity
    · rw [indicator_of_notMem (show z ∉ (fun z => (1 + c * z) ^ 3) ⁻¹' B from hb)]
      have : Prod.mk z ⁻¹' ((fun p : ℝ × ℝ => (1 + c * p.1) ^ 3) ⁻¹' B ∩ gammaAcc d c) = ∅ := by
        ext u; simp [hb]
      rw [this, measure_empty, mul_zero]
  · rw [indicator_of_notMem (show z ∉ Ioi (-1 / c) from hz)]
    have : Prod.mk z ⁻¹' ((fun p : ℝ × ℝ => (1 + c * p.1) ^ 3) ⁻¹' B ∩ gammaAcc d c) = ∅ := by
      ext u
      simp only [mem_preimage, mem_inter_iff, gammaAcc, mem_ofPred_eq, mem_empty_iff_false, iff_false]
      exact fun ⟨_, h, _⟩ => hz h
    rw [this, measure_empty, mul_zero]

/-- the constant between the two -/
noncomputable def gammaConst (a c : ℝ) : ℝ :=
  3 * c * (a - 1 / 3) ^ a / Real.Gamma a * √(2 * Real.pi) * Real.exp (-(a - 1 / 3))

/-- density of the accepted value against that of the proposal -/
theorem gamma_prop {a c θ z : ℝ} (ha : 1 < a) (hθ : 0 < θ) (hc : 0 < c) (hz : -1 / c < z) :
    |3 * c * (a - 1 / 3) * θ * (1 + c * z) ^ 2| * gammaPdf a θ ((a - 1 / 3) * (1 + c * z) ^ 3 * θ) =
      gammaConst a c * (normPdf 0 1 z * Real.exp (gammaCheck (a - 1 / 3) c z)) := by
  have hx : 0 < 1 + c * z := by rw [div_lt_iff₀ hc] at hz; linarith
  have hd : 0 < a - 1 / 3 := by linarith
  have hG : 0 < Real.Gamma a := Real.Gamma_pos_of_pos (by linarith)
  set d := a - 1 / 3 with hdd
  set x := 1 + c * z with hxd
  have hw : 0 < d * x ^ 3 * θ := by positivity
  rw [abs_of_pos (by positivity), gammaPdf, if_pos hw, gammaConst, gammaCheck, normPdf]
  have e1 : -(d * x ^ 3 * θ) / θ = -(d * x ^ 3) := by field_simp
  have e2 : (d * x ^ 3 * θ) ^ (a - 1) = d ^ (a - 1) * x ^ (3 * a - 3) * θ ^ (a - 1) := by
    rw [Real.mul_rpow (by positivity) hθ.le, Real.mul_rpow hd.le (by positivity), ← Real.rpow_natCast x 3, ← Real.rpow_mul hx.le]
    push_cast; ring_nf
  have e3 : Real.exp (1 / 2 * z * z + d * (1 - x ^ 3 + Real.log (x ^ 3))) =
      Real.exp (1 / 2 * z * z) * (Real.exp d * Real.exp (-(d * x ^ 3)) * x ^ (3 * a - 1)) := by
    have : x ^ (3 * a - 1) = Real.exp (d * Real.log (x ^ 3)) := by
      rw [Real.log_pow, Real.rpow_def_of_pos hx]; congr 1; rw [hdd]; push_cast; ring
    rw [this, ← Real.exp_add, ← Real.exp_add, ← Real.exp_add]; congr 1; ring
  have e4 : Real.exp (-((z - 0) ^ 2) / (2 * 1 ^ 2)) * Real.exp (1 / 2 * z * z) = 1 := by
    rw [← Real.exp_add]; simp; ring
  have e5 : Real.exp (-d) * Real.exp d = 1 := by rw [← Real.exp_add]; simp
  have e6 : d ^ (a - 1) * d = d ^ a := by rw [Real.rpow_sub_one hd.ne']; field_simp
  have e7 : θ ^ (a - 1) * θ = θ ^ a := by rw [Real.rpow_sub_one hθ.ne']; field_simp
  have e8 : x ^ (3 * a - 3) * x ^ 2 = x ^ (3 * a - 1) := by
    rw [← Real.rpow_natCast x 2, ← Real.rpow_add hx]; push_cast; ring_nf
  have hs : √(2 * Real.pi) ≠ 0 := by positivity
  have hθa : θ ^ a ≠ 0 := (Real.rpow_pos_of_pos hθ a).ne'
  rw [e1, e2, e3]
  calc 3 * c * d * θ * x ^ 2 * (d ^ (a - 1) * x ^ (3 * a - 3) * θ ^ (a - 1) * Real.exp (-(d * x ^ 3)) / (θ ^ a * Real.Gamma a))
      = 3 * c * (d ^ (a - 1) * d) * (θ ^ (a - 1) * θ) * (x ^ (3 * a - 3) * x ^ 2) * Real.exp (-(d * x ^ 3)) / (θ ^ a * Real.Gamma a) := by ring
    _ = 3 * c * d ^ a * x ^ (3 * a - 1) * Real.exp (-(d * x ^ 3)) / Real.Gamma a := by
        rw [e6, e7, e8]; field_simp
    _ = 3 * c * d ^ a / Real.Gamma a * (√(2 * Real.pi) * (1 / √(2 * Real.pi))) * (Real.exp (-d) * Real.exp d) *
        (Real.exp (-((z - 0) ^ 2) / (2 * 1 ^ 2)) * Real.exp (1 / 2 * z * z)) * (Real.exp (-(d * x ^ 3)) * x ^ (3 * a - 1)) := by
        rw [e4, e5]; field_simp
    _ = _ := by rw [mul_one]; ring

theorem isCdf_gamma_prob {a θ : ℝ} (ha : 0 < a) (hθ : 0 < θ) : IsProbabilityMeasure (densLaw (gammaPdf a θ)) :=
  (isCdf_gamma ha hθ).isProb

/-- the accepted value, scaled, has the gamma law up to normalisation -/
theorem gammaSub_map {a c θ : ℝ} (ha : 1 < a) (hθ : 0 < θ) (hc : 0 < c) (h : (a - 1 / 3) * (9 * c ^ 2) = 1) :
    densLaw (gammaPdf a θ) = ENNReal.ofReal (gammaConst a c) • (gammaSub (a - 1 / 3) c).map (fun v => (a - 1 / 3) * v * θ) := by
  have hd : 0 < a - 1 / 3 := by linarith
  have hW : Measurable fun v : ℝ => (a - 1 / 3) * v * θ := by fun_prop
  refine Measure.ext fun B hB => ?_
  rw [Measure.smul_apply, Measure.map_apply hW hB, gammaSub_apply hd.le hc h (hW hB), densLaw_apply _ hB, smul_eq_mul,
    ← lintegral_const_mul']
  swap
  · exact ENNReal.ofReal_ne_top
  set W : ℝ → ℝ := fun z => (a - 1 / 3) * (1 + c * z) ^ 3 * θ with hWd
  have hder : ∀ z ∈ Ioi (-1 / c), HasDerivWithinAt W (3 * c * (a - 1 / 3) * θ * (1 + c * z) ^ 2) (Ioi (-1 / c)) z := by
    intro z _
    have h1 : HasDerivAt (fun z : ℝ => 1 + c * z) c z := by simpa using ((hasDerivAt_id z).const_mul c).const_add 1
    have h2 := (((h1.pow 3).const_mul (a - 1 / 3)).mul_const θ).hasDerivWithinAt (s := Ioi (-1 / c))
    refine h2.congr_deriv ?_
    push_cast; ring
  have hinj : InjOn W (Ioi (-1 / c)) := by
    intro x hx y hy e
    have hx : 0 < 1 + c * x := by have := (div_lt_iff₀ hc).1 hx; linarith
    have hy : 0 < 1 + c * y := by have := (div_lt_iff₀ hc).1 hy; linarith
    have e1 : (1 + c * x) ^ 3 = (1 + c * y) ^ 3 := by
      have := mul_right_cancel₀ hθ.ne' e
      exact mul_left_cancel₀ hd.ne' this
    have e2 := (pow_left_inj₀ hx.le hy.le (by norm_num)).1 e1
    have : c * x = c * y := by linarith
    exact mul_left_cancel₀ hc.ne' this
  have him : W '' Ioi (-1 / c) = Ioi 0 := by
    ext w
    simp only [mem_image, mem_Ioi]
    constructor
    · rintro ⟨z, hz, rfl⟩
      have : 0 < 1 + c * z := by have := (div_lt_iff₀ hc).1 hz; linarith
      positivity
    · intro hw
      have hq : 0 < w / ((a - 1 / 3) * θ) := by positivity
      refine ⟨((w / ((a - 1 / 3) * θ)) ^ ((1 : ℝ) / 3) - 1) / c, ?_, ?_⟩
      · rw [div_lt_div_iff_of_pos_right hc]; have := Real.rpow_pos_of_pos hq (1 / 3); linarith
      · have e : 1 + c * (((w / ((a - 1 / 3) * θ)) ^ ((1 : ℝ) / 3) - 1) / c) = (w / ((a - 1 / 3) * θ)) ^ ((1 : ℝ) / 3) := by
          field_simp; ring
        simp only [hWd]
        rw [e, ← Real.rpow_natCast, ← Real.rpow_mul hq.le]
        norm_num
        field_simp
        exact div_self (by linarith)
  have e1 : ∫⁻ x in B, ENNReal.ofReal (gammaPdf a θ x) =
      ∫⁻ x in W '' Ioi (-1 / c), B.indicator (fun x => ENNReal.ofReal (gammaPdf a θ x)) x := by
    rw [him, ← lintegral_indicator hB, ← lintegral_indicator measurableSet_Ioi]
    congr 1; funext x
    by_cases hx : 0 < x
    · rw [indicator_of_mem (show x ∈ Ioi 0 from hx)]
    · rw [indicator_of_notMem (show x ∉ Ioi 0 from hx), indicator]; split_ifs
      · rw [gammaPdf, if_neg hx, ENNReal.ofReal_zero]
      · rfl
  rw [e1, lintegral_image_eq_lintegral_abs_deriv_mul measurableSet_Ioi hder hinj]
  refine setLIntegral_congr_fun measurableSet_Ioi fun z hz => ?_
  have hiff : (z ∈ (fun z => (1 + c * z) ^ 3) ⁻¹' ((fun v => (a - 1 / 3) * v * θ) ⁻¹' B)) ↔ W z ∈ B := Iff.rfl
  by_cases hb : W z ∈ B
  · rw [indicator_of_mem (hiff.2 hb), indicator_of_mem hb, ← ENNReal.ofReal_mul (abs_nonneg _), gamma_prop ha hθ hc hz,
      ENNReal.ofReal_mul]
    have : 0 < Real.Gamma a := Real.Gamma_pos_of_pos (by linarith)
    rw [gammaConst]; positivity
  · rw [indicator_of_notMem (fun q => hb (hiff.1 q)), indicator_of_notMem hb, mul_zero, mul_zero]

theorem smul_normalise {ν μ : Measure ℝ} [IsProbabilityMeasure ν] {C : ℝ≥0∞} (h : ν = C • μ) :
    (μ univ)⁻¹ • μ = ν := by
  have h1 : C * μ univ = 1 := by
    have := measure_univ (μ := ν)
    rwa [h, Measure.smul_apply, smul_eq_mul] at this
  rw [h, ENNReal.eq_inv_of_mul_eq_one_left h1]

/-- the normalised law of the accepted value -/
theorem gammaSub_law {a c θ : ℝ} (ha : 1 < a) (hθ : 0 < θ) (hc : 0 < c) (h : (a - 1 / 3) * (9 * c ^ 2) = 1) :
    ((gammaSub (a - 1 / 3) c univ)⁻¹ • gammaSub (a - 1 / 3) c).map (fun v => (a - 1 / 3) * v * θ) = densLaw (gammaPdf a θ) := by
  have := isCdf_gamma_prob (by linarith : 0 < a) hθ
  have e := smul_normalise (gammaSub_map ha hθ hc h)
  have hW : Measurable fun v : ℝ => (a - 1 / 3) * v * θ := by fun_prop
  rw [Measure.map_apply hW MeasurableSet.univ, preimage_univ] at e
  rw [← e, Measure.map_smul]

theorem gammaSub_univ_ne_zero {a c : ℝ} (ha : 1 < a) (hc : 0 < c) (h : (a - 1 / 3) * (9 * c ^ 2) = 1) :
    gammaSub (a - 1 / 3) c univ ≠ 0 := by
  have := isCdf_gamma_prob (by linarith : 0 < a) one_pos
  have h1 := measure_univ (μ := densLaw (gammaPdf a 1))
  intro h0
  have hW : Measurable fun v : ℝ => (a - 1 / 3) * v * 1 := by fun_prop
  rw [gammaSub_map ha one_pos hc h, Measure.smul_apply, Measure.map_apply hW MeasurableSet.univ, preimage_univ, h0] at h1
  simp at h1

/-- The boost: a gamma variate of shape `1 + a` times an independent `U^(1/a)` is a gamma variate of shape `a`. -/
theorem gamma_boost {a θ : ℝ} (ha : 0 < a) (hθ : 0 < θ) :
    ((volume.restrict (Ioo (0 : ℝ) 1)).prod (densLaw (gammaPdf (1 + a) θ))).map (fun p => p.2 * p.1 ^ (1 / a)) =
      densLaw (gammaPdf a θ) := by
  let k : ℝ → ℝ → ℝ := fun w x => if 0 < w ∧ w < x then a * w ^ (a - 1) * x ^ (-a) else 0
  have hk : Measurable fun p : ℝ × ℝ => k p.1 p.2 := by
    refine Measurable.ite ((measurableSet_lt measurable_const measurable_fst).inter
      (measurableSet_lt measurable_fst measurable_snd)) (by fun_prop) measurable_const
  have hg : Measurable (gammaPdf (1 + a) θ) := by
    unfold gammaPdf
    exact Measurable.ite measurableSet_Ioi (by fun_prop) measurable_const
  refine densLaw_mix (h := fun u x => x * u ^ (1 / a)) (k := k) hg (by fun_prop) hk ?_ ?_
  · intro x hx
    have hx : 0 < x := by
      by_contra hc
      exact hx (by rw [gammaPdf, if_neg hc])
    have hu : (volume.restrict (Ioo (0 : ℝ) 1)) = densLaw ((Ioo (0 : ℝ) 1).indicator fun _ => 1) := by
      refine Measure.ext fun B hB => ?_
      rw [densLaw_apply _ hB, Measure.restrict_apply hB, inter_comm, ← setLIntegral_one,
        ← Measure.restrict_restrict measurableSet_Ioo, ← lintegral_indicator measurableSet_Ioo]
      congr 1; funext u
      by_cases hu : u ∈ Ioo (0 : ℝ) 1
      · rw [indicator_of_mem hu, indicator_of_mem hu, ENNReal.ofReal_one]
      · rw [indicator_of_notMem hu, indicator_of_notMem hu, ENNReal.ofReal_zero]
    rw [hu]
    have him : ∀ w ∈ Ioo 0 x, (w / x) ^ a ∈ Ioo (0 : ℝ) 1 := fun w hw =>
      ⟨Real.rpow_pos_of_pos (div_pos hw.1 hx) a, Real.rpow_lt_one (div_pos hw.1 hx).le ((div_lt_one hx).2 hw.2) ha⟩
    rw [densLaw_map (ψ := fun w => (w / x) ^ a) (ψ' := fun w => a * w ^ (a - 1) * x ^ (-a)) (s := Ioo 0 x)
      measurableSet_Ioo (by fun_prop) ?_ ?_ ?_]
    · congr 1; funext w
      by_cases hw : w ∈ Ioo 0 x
      · rw [indicator_of_mem hw, indicator_of_mem (him w hw), mul_one]
        simp only [k]
        rw [if_pos (by exact hw), abs_of_nonneg]
        have := hw.1
        positivity
      · rw [indicator_of_notMem hw]
        simp only [k]
        rw [if_neg (by exact hw)]
    · intro w hw
      have h1 : HasDerivAt (fun w : ℝ => w / x) (1 / x) w := (hasDerivAt_id w).div_const x
      have h2 := (h1.rpow_const (p := a) (Or.inl (div_pos hw.1 hx).ne')).hasDerivWithinAt (s := Ioo 0 x)
      refine h2.congr_deriv ?_
      rw [Real.div_rpow hw.1.le hx.le, Real.rpow_sub_one hx.ne', Real.rpow_neg hx.le]
      have := (Real.rpow_pos_of_pos hx a).ne'
      field_simp
    · intro w hw
      have h0 := div_pos hw.1 hx
      rw [← Real.rpow_mul h0.le, mul_one_div_cancel ha.ne', Real.rpow_one, mul_div_cancel₀ _ hx.ne']
    · intro u hu
      rw [indicator_of_notMem]
      intro hc
      refine hu ⟨x * u ^ (1 / a), ⟨?_, ?_⟩, ?_⟩
      · have := Real.rpow_pos_of_pos hc.1 (1 / a); positivity
      · have := Real.rpow_lt_one hc.1.le hc.2 (by positivity : 0 < 1 / a)
        nlinarith
      · simp only
        rw [mul_div_cancel_left₀ _ hx.ne', ← Real.rpow_mul hc.1.le, one_div_mul_cancel ha.ne', Real.rpow_one]
  · refine Filter.Eventually.of_forall fun w => ?_
    by_cases hw : 0 < w
    · have e : ∀ y, ENNReal.ofReal (k w y) * ENNReal.ofReal (gammaPdf (1 + a) θ y) = (Ioi w).indicator
          (fun y => ENNReal.ofReal (a * w ^ (a - 1) / (θ ^ (1 + a) * Real.Gamma (1 + a)) * Real.exp (-(1 / θ) * y))) y := by
        intro y
        by_cases hy : w < y
        · have hy0 := hw.trans hy
          have : 0 ≤ k w y := by simp only [k]; rw [if_pos ⟨hw, hy⟩]; positivity
          rw [indicator_of_mem (show y ∈ Ioi w from hy), ← ENNReal.ofReal_mul this]
          congr 1
          simp only [k]
          rw [if_pos ⟨hw, hy⟩, gammaPdf, if_pos hy0, add_sub_cancel_left, Real.rpow_neg hy0.le]
          have h1 := (Real.rpow_pos_of_pos hy0 a).ne'
          rw [show -(1 / θ) * y = -y / θ by ring]
          field_simp
        · rw [indicator_of_notMem (show y ∉ Ioi w from hy)]
          simp only [k]
          rw [if_neg (fun q => hy q.2), ENNReal.ofReal_zero, zero_mul]
      have hG : 0 < Real.Gamma a := Real.Gamma_pos_of_pos ha
      have hneg : -(1 / θ) < 0 := by rw [neg_lt_zero]; positivity
      simp_rw [e]
      rw [lintegral_indicator measurableSet_Ioi, ← ofReal_integral_eq_lintegral_ofReal]
      · rw [integral_const_mul, integral_exp_mul_Ioi hneg, gammaPdf, if_pos hw, add_comm 1 a, Real.Gamma_add_one ha.ne',
          Real.rpow_add_one hθ.ne', show -(1 / θ) * w = -w / θ by ring]
        congr 1
        have := (Real.rpow_pos_of_pos hθ a).ne'
        field_simp
      · exact (integrableOn_exp_mul_Ioi hneg w).const_mul _
      · refine Filter.Eventually.of_forall fun y => ?_
        have : 0 < Real.Gamma (1 + a) := Real.Gamma_pos_of_pos (by linarith)
        simp only [Pi.zero_apply]
        positivity
    · have e : ∀ y, ENNReal.ofReal (k w y) * ENNReal.ofReal (gammaPdf (1 + a) θ y) = 0 := by
        intro y
        simp only [k]
        rw [if_neg (fun q => hw q.1), ENNReal.ofReal_zero, zero_mul]
      simp_rw [e]
      rw [gammaPdf, if_neg hw]; simp

end Stats

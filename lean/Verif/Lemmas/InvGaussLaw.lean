import Verif.Lemmas.DerivedLaw

/-! The mathematics of the inverse Gaussian generator. -/

set_option linter.unusedSectionVars false
open MeasureTheory Set
open scoped ENNReal

namespace Stats
open Spec

/-- the smaller root, rand/rinvgauss.ipp:43 -/
noncomputable def igRoot (mu lambda y : ℝ) : ℝ :=
  mu + (mu * mu * y - mu * √(4 * mu * lambda * y + mu * mu * y * y)) / (2 * lambda)

/-- the normal variate that leads to the root `x` -/
noncomputable def igNorm (mu lambda x : ℝ) : ℝ := √lambda * (mu - x) / (mu * √x)

section
variable {mu lambda : ℝ} (hm : 0 < mu) (hl : 0 < lambda)
include hm hl

theorem igRoot_pos {y : ℝ} (hy : 0 ≤ y) : 0 < igRoot mu lambda y := by
  have h1 : √(4 * mu * lambda * y + mu * mu * y * y) < 2 * lambda + mu * y := by
    rw [Real.sqrt_lt' (by positivity)]
    nlinarith [mul_pos hl hl]
  have h2 : 0 < 2 * lambda := by linarith
  have h3 : igRoot mu lambda y = mu * (2 * lambda + mu * y - √(4 * mu * lambda * y + mu * mu * y * y)) / (2 * lambda) := by
    rw [igRoot]; field_simp; ring
  rw [h3]
  exact div_pos (mul_pos hm (by linarith)) h2

theorem igRoot_lt {y : ℝ} (hy : 0 < y) : igRoot mu lambda y < mu := by
  have h1 : mu * y < √(4 * mu * lambda * y + mu * mu * y * y) := by
    rw [Real.lt_sqrt (by positivity)]
    nlinarith [mul_pos (mul_pos hm hl) hy]
  have h2 : 0 < 2 * lambda := by linarith
  rw [igRoot]
  have : (mu * mu * y - mu * √(4 * mu * lambda * y + mu * mu * y * y)) / (2 * lambda) < 0 :=
    div_neg_of_neg_of_pos (by nlinarith) h2
  linarith

/-- both candidates solve the transformation equation -/
theorem igRoot_eq {y : ℝ} (hy : 0 ≤ y) :
    lambda * (igRoot mu lambda y - mu) ^ 2 = mu ^ 2 * igRoot mu lambda y * y := by
  have hq : √(4 * mu * lambda * y + mu * mu * y * y) ^ 2 = 4 * mu * lambda * y + mu * mu * y * y :=
    Real.sq_sqrt (by positivity)
  rw [igRoot]
  generalize √(4 * mu * lambda * y + mu * mu * y * y) = q at hq
  field_simp
  linear_combination hq

theorem igNorm_pos {x : ℝ} (h0 : 0 < x) (h1 : x < mu) : 0 < igNorm mu lambda x := by
  have : 0 < mu - x := by linarith
  rw [igNorm]; positivity

theorem igNorm_sq {x : ℝ} (h0 : 0 < x) : igNorm mu lambda x * igNorm mu lambda x = lambda * (mu - x) ^ 2 / (mu ^ 2 * x) := by
  have h1 : √lambda ^ 2 = lambda := Real.sq_sqrt hl.le
  have h2 : √x ^ 2 = x := Real.sq_sqrt h0.le
  have h3 : √x ≠ 0 := (Real.sqrt_pos.2 h0).ne'
  rw [igNorm, div_mul_div_comm, show √lambda * (mu - x) * (√lambda * (mu - x)) = √lambda ^ 2 * (mu - x) ^ 2 by ring,
    show mu * √x * (mu * √x) = mu ^ 2 * √x ^ 2 by ring, h1, h2]

theorem igRoot_igNorm {x : ℝ} (h0 : 0 < x) (h1 : x < mu) :
    igRoot mu lambda (igNorm mu lambda x * igNorm mu lambda x) = x := by
  have h2 : 0 < mu - x := by linarith
  rw [igNorm_sq hm hl h0, igRoot]
  have hs : √(4 * mu * lambda * (lambda * (mu - x) ^ 2 / (mu ^ 2 * x)) +
      mu * mu * (lambda * (mu - x) ^ 2 / (mu ^ 2 * x)) * (lambda * (mu - x) ^ 2 / (mu ^ 2 * x))) =
      lambda * (mu - x) * (mu + x) / (mu * x) := by
    rw [show 4 * mu * lambda * (lambda * (mu - x) ^ 2 / (mu ^ 2 * x)) +
      mu * mu * (lambda * (mu - x) ^ 2 / (mu ^ 2 * x)) * (lambda * (mu - x) ^ 2 / (mu ^ 2 * x)) =
      (lambda * (mu - x) * (mu + x) / (mu * x)) ^ 2 by field_simp; ring]
    exact Real.sqrt_sq (by positivity)
  rw [hs]
  field_simp
  ring

theorem igNorm_igRoot {z : ℝ} (hz : 0 < z) : igNorm mu lambda (igRoot mu lambda (z * z)) = z := by
  have hy : 0 < z * z := mul_pos hz hz
  have h0 := igRoot_pos hm hl hy.le
  have h1 := igRoot_lt hm hl hy
  have h2 := igRoot_eq hm hl hy.le
  have h3 := igNorm_sq hm hl h0
  have h4 := igNorm_pos hm hl h0 h1
  have : igNorm mu lambda (igRoot mu lambda (z * z)) * igNorm mu lambda (igRoot mu lambda (z * z)) = z * z := by
    rw [h3, div_eq_iff (by positivity)]
    linear_combination h2
  nlinarith [this]

theorem igNorm_deriv {x : ℝ} (h0 : 0 < x) :
    HasDerivAt (igNorm mu lambda) (-(√lambda * (mu + x) / (2 * mu * (x * √x)))) x := by
  have hs : 0 < √x := Real.sqrt_pos.2 h0
  have h1 : √x ^ 2 = x := Real.sq_sqrt h0.le
  have d1 : HasDerivAt (fun x => √lambda * (mu - x)) (-√lambda) x := by
    simpa using ((hasDerivAt_id x).const_sub mu).const_mul (√lambda)
  have d2 : HasDerivAt (fun x => mu * √x) (mu * (1 / (2 * √x))) x := (Real.hasDerivAt_sqrt h0.ne').const_mul mu
  refine (d1.div d2 (by positivity)).congr_deriv ?_
  field_simp
  rw [h1]
  ring

/-- density of the smaller root -/
noncomputable def igPdf1 (mu lambda x : ℝ) : ℝ := if 0 < x ∧ x < mu then invgaussPdf mu lambda x * ((mu + x) / mu) else 0

theorem igPdf_change {x : ℝ} (h0 : 0 < x) (z : ℝ) (hz : z = igNorm mu lambda x ∨ z = -igNorm mu lambda x) :
    √lambda * (mu + x) / (2 * mu * (x * √x)) * normPdf 0 1 z = invgaussPdf mu lambda x * ((mu + x) / mu) / 2 := by
  have hs : 0 < √x := Real.sqrt_pos.2 h0
  have h1 : √x ^ 2 = x := Real.sq_sqrt h0.le
  have hz2 : z * z = lambda * (mu - x) ^ 2 / (mu ^ 2 * x) := by
    rcases hz with rfl | rfl
    · exact igNorm_sq hm hl h0
    · rw [neg_mul_neg]; exact igNorm_sq hm hl h0
  rw [normPdf, invgaussPdf, if_pos h0]
  have e1 : -((z - 0) ^ 2) / (2 * 1 ^ 2) = -(lambda * (x - mu) ^ 2) / (2 * mu ^ 2 * x) := by
    rw [sub_zero, pow_two, hz2]; field_simp; ring
  have e2 : √(lambda / (2 * Real.pi * x ^ 3)) = √lambda / (√(2 * Real.pi) * (x * √x)) := by
    rw [Real.sqrt_div hl.le, Real.sqrt_mul (show 0 ≤ 2 * Real.pi by positivity), show x ^ 3 = x ^ 2 * x by ring,
      Real.sqrt_mul (show 0 ≤ x ^ 2 by positivity), Real.sqrt_sq h0.le]
  rw [e1, e2]
  have : 0 < √(2 * Real.pi) := by positivity
  field_simp

end

theorem densLaw_add {f g : ℝ → ℝ} (hf : ∀ x, 0 ≤ f x) (hg : ∀ x, 0 ≤ g x) (mf : Measurable f) :
    densLaw (fun x => f x + g x) = densLaw f + densLaw g := by
  rw [densLaw, densLaw, densLaw, ← withDensity_add_left mf.ennreal_ofReal]
  congr 1; funext x
  exact ENNReal.ofReal_add (hf x) (hg x)

section
variable {mu lambda : ℝ} (hm : 0 < mu) (hl : 0 < lambda)
include hm hl

theorem measurable_igRoot : Measurable (igRoot mu lambda) := by unfold igRoot; fun_prop
theorem measurable_invgaussPdf : Measurable (invgaussPdf mu lambda) := by
  unfold invgaussPdf; exact Measurable.ite measurableSet_Ioi (by fun_prop) measurable_const
theorem invgaussPdf_nonneg (x : ℝ) : 0 ≤ invgaussPdf mu lambda x := by
  rw [invgaussPdf]; split_ifs
  · positivity
  · exact le_rfl

theorem ig_half {σ : ℝ} (hσ : σ = 1 ∨ σ = -1) :
    (densLaw fun z => if 0 < σ * z then normPdf 0 1 z else 0).map (fun z => igRoot mu lambda (z * z)) =
      densLaw fun x => igPdf1 mu lambda x / 2 := by
  have hσ2 : σ * σ = 1 := by rcases hσ with rfl | rfl <;> norm_num
  have hσa : |σ| = 1 := by rcases hσ with rfl | rfl <;> norm_num
  have hmr : Measurable fun z => igRoot mu lambda (z * z) := (measurable_igRoot hm hl).comp (by fun_prop)
  rw [densLaw_map (ψ := fun x => σ * igNorm mu lambda x) (ψ' := fun x => σ * -(√lambda * (mu + x) / (2 * mu * (x * √x))))
    (s := Ioo 0 mu) measurableSet_Ioo hmr]
  · congr 1; funext x
    by_cases hx : 0 < x ∧ x < mu
    · rw [indicator_of_mem (by exact hx), igPdf1, if_pos hx]
      have hs : 0 < √x := Real.sqrt_pos.2 hx.1
      have hx0 := hx.1
      have h2 : 0 < σ * (σ * igNorm mu lambda x) := by
        rw [← mul_assoc, hσ2, one_mul]; exact igNorm_pos hm hl hx.1 hx.2
      rw [if_pos h2, abs_mul, hσa, one_mul, abs_neg, abs_of_pos (by positivity)]
      refine igPdf_change hm hl hx.1 _ ?_
      rcases hσ with rfl | rfl <;> simp
    · rw [indicator_of_notMem (by exact hx), igPdf1, if_neg hx, zero_div]
  · exact fun x hx => ((igNorm_deriv hm hl hx.1).const_mul σ).hasDerivWithinAt
  · intro x hx
    rw [show σ * igNorm mu lambda x * (σ * igNorm mu lambda x) = (σ * σ) * (igNorm mu lambda x * igNorm mu lambda x) by ring,
      hσ2, one_mul, igRoot_igNorm hm hl hx.1 hx.2]
  · intro z hz
    rw [if_neg]
    intro h0
    have hy : 0 < z * z := mul_self_pos.2 (by rintro rfl; simp at h0)
    refine hz ⟨igRoot mu lambda (z * z), ⟨igRoot_pos hm hl hy.le, igRoot_lt hm hl hy⟩, ?_⟩
    have e : z * z = (σ * z) * (σ * z) := by rw [show σ * z * (σ * z) = (σ * σ) * (z * z) by ring, hσ2, one_mul]
    simp only
    rw [e, igNorm_igRoot hm hl h0, ← mul_assoc, hσ2, one_mul]

/-- the law of the smaller root -/
theorem ig_small : (densLaw (normPdf 0 1)).map (fun z => igRoot mu lambda (z * z)) = densLaw (igPdf1 mu lambda) := by
  have hmr : Measurable fun z => igRoot mu lambda (z * z) := (measurable_igRoot hm hl).comp (by fun_prop)
  have hn : Measurable (normPdf 0 1) := by unfold normPdf; fun_prop
  have hn0 : ∀ z, 0 ≤ normPdf 0 1 z := fun z => by rw [normPdf]; positivity
  have hg0 : ∀ x, 0 ≤ igPdf1 mu lambda x / 2 := by
    intro x; rw [igPdf1]; split_ifs with h
    · have := invgaussPdf_nonneg hm hl x
      have := h.1
      positivity
    · simp
  have hmg : Measurable fun x => igPdf1 mu lambda x / 2 := by
    unfold igPdf1
    exact (Measurable.ite measurableSet_Ioo ((measurable_invgaussPdf hm hl).mul (by fun_prop)) measurable_const).div_const 2
  have e1 : densLaw (normPdf 0 1) = densLaw (fun z => if 0 < 1 * z then normPdf 0 1 z else 0) +
      densLaw (fun z => if 0 < -1 * z then normPdf 0 1 z else 0) := by
    rw [← densLaw_add]
    · refine densLaw_congr ?_
      have : ∀ᵐ z : ℝ, z ≠ 0 := by simp [ae_iff]
      filter_upwards [this] with z hz
      rcases lt_or_gt_of_ne hz with h | h
      · rw [if_neg (by linarith), if_pos (by linarith), zero_add]
      · rw [if_pos (by linarith), if_neg (by linarith), add_zero]
    · intro x; split_ifs
      · exact hn0 x
      · exact le_rfl
    · intro x; split_ifs
      · exact hn0 x
      · exact le_rfl
    · exact Measurable.ite (measurableSet_lt measurable_const (by fun_prop)) hn measurable_const
  rw [e1, Measure.map_add _ _ hmr, ig_half hm hl (Or.inl rfl), ig_half hm hl (Or.inr rfl), ← densLaw_add hg0 hg0 hmg]
  congr 1; funext x; ring

/-- the reflection `x ↦ mu²/x` -/
theorem invgaussPdf_reflect {w : ℝ} (hw : 0 < w) :
    mu ^ 2 / w ^ 2 * (invgaussPdf mu lambda (mu * mu / w) * (mu * mu / w / mu)) = invgaussPdf mu lambda w := by
  have h0 : 0 < mu * mu / w := by positivity
  rw [invgaussPdf, if_pos h0, invgaussPdf, if_pos hw]
  have e1 : -(lambda * (mu * mu / w - mu) ^ 2) / (2 * mu ^ 2 * (mu * mu / w)) = -(lambda * (w - mu) ^ 2) / (2 * mu ^ 2 * w) := by
    field_simp; ring
  have e2 : √(lambda / (2 * Real.pi * (mu * mu / w) ^ 3)) = √(lambda / (2 * Real.pi * w ^ 3)) * (w / mu) ^ 3 := by
    have : (w / mu) ^ 3 = √(((w / mu) ^ 3) ^ 2) := (Real.sqrt_sq (by positivity)).symm
    rw [this, ← Real.sqrt_mul (by positivity)]
    congr 1; field_simp
  rw [e1, e2]
  field_simp

/-- keep the smaller root `x` with probability `mu/(mu+x)`, else take `mu²/x` -/
theorem ig_choose :
    ((densLaw (igPdf1 mu lambda)).prod (volume.restrict (Ioo (0 : ℝ) 1))).map
      (fun p => if p.2 ≤ mu / (mu + p.1) then p.1 else mu * mu / p.1) = densLaw (invgaussPdf mu lambda) := by
  have hi0 := invgaussPdf_nonneg hm hl
  have him := measurable_invgaussPdf hm hl
  have hm1 : Measurable (igPdf1 mu lambda) := by
    unfold igPdf1
    exact Measurable.ite measurableSet_Ioo (him.mul (by fun_prop)) measurable_const
  set H : ℝ × ℝ → ℝ := fun p => if p.2 ≤ mu / (mu + p.1) then p.1 else mu * mu / p.1 with hH
  have hHm : Measurable H := Measurable.ite (measurableSet_le measurable_snd (by fun_prop)) measurable_fst (by fun_prop)
  -- the two parts
  set fa : ℝ → ℝ := fun x => if 0 < x ∧ x < mu then invgaussPdf mu lambda x else 0 with hfa
  set fb : ℝ → ℝ := fun x => if 0 < x ∧ x < mu then invgaussPdf mu lambda x * (x / mu) else 0 with hfb
  set fc : ℝ → ℝ := fun x => if mu < x then invgaussPdf mu lambda x else 0 with hfc
  have hb : (densLaw fb).map (fun x => mu * mu / x) = densLaw fc := by
    rw [densLaw_map (ψ := fun w => mu * mu / w) (ψ' := fun w => -(mu ^ 2 / w ^ 2)) (s := Ioi mu) measurableSet_Ioi (by fun_prop)]
    · congr 1; funext w
      by_cases hw : mu < w
      · have hw0 := hm.trans hw
        rw [indicator_of_mem (show w ∈ Ioi mu from hw), hfc]
        simp only [if_pos hw, hfb]
        rw [if_pos ⟨by positivity, (div_lt_iff₀ hw0).2 (by nlinarith)⟩, abs_neg, abs_of_pos (by positivity),
          invgaussPdf_reflect hm hl hw0]
      · rw [indicator_of_notMem (show w ∉ Ioi mu from hw), hfc]
        simp only [if_neg hw]
    · intro w hw
      have hw0 : w ≠ 0 := (hm.trans hw).ne'
      have := ((hasDerivAt_inv hw0).const_mul (mu * mu)).hasDerivWithinAt (s := Ioi mu)
      simp only [← div_eq_mul_inv] at this
      refine this.congr_deriv ?_
      field_simp
    · intro w hw
      have hw0 : w ≠ 0 := (hm.trans hw).ne'
      field_simp
    · intro x hx
      rw [hfb]
      refine if_neg fun h => hx ⟨mu * mu / x, ?_, ?_⟩
      · show mu < mu * mu / x
        rw [lt_div_iff₀ h.1]; nlinarith [h.2]
      · have := h.1.ne'
        field_simp
  have hsum : densLaw (invgaussPdf mu lambda) = densLaw fa + densLaw fc := by
    rw [← densLaw_add]
    · refine densLaw_congr ?_
      have : ∀ᵐ x : ℝ, x ≠ mu := by simp [ae_iff]
      filter_upwards [this] with x hx
      simp only [hfa, hfc]
      rcases lt_or_gt_of_ne hx with h | h
      · by_cases h0 : 0 < x
        · rw [if_pos ⟨h0, h⟩, if_neg (not_lt.2 h.le), add_zero]
        · rw [if_neg (fun q => h0 q.1), if_neg (not_lt.2 h.le), add_zero, invgaussPdf, if_neg h0]
      · rw [if_neg (fun q => not_lt.2 h.le q.2), if_pos h, zero_add]
    · intro x; simp only [hfa]; split_ifs
      · exact hi0 x
      · exact le_rfl
    · intro x; simp only [hfc]; split_ifs
      · exact hi0 x
      · exact le_rfl
    · exact Measurable.ite measurableSet_Ioo him measurable_const
  rw [hsum, ← hb]
  refine Measure.ext fun B hB => ?_
  have hinv : Measurable fun x : ℝ => mu * mu / x := by fun_prop
  rw [Measure.map_apply hHm hB, Measure.prod_apply (hHm hB), densLaw,
    lintegral_withDensity_eq_lintegral_mul _ hm1.ennreal_ofReal (measurable_measure_prodMk_left (hHm hB)),
    Measure.add_apply, Measure.map_apply hinv hB, densLaw_apply _ hB, densLaw_apply _ (hinv hB),
    ← lintegral_indicator hB, ← lintegral_indicator (hinv hB)]
  rw [← lintegral_add_left]
  swap
  · have : Measurable fa := Measurable.ite measurableSet_Ioo him measurable_const
    exact this.ennreal_ofReal.indicator hB
  congr 1; funext x
  simp only [Pi.mul_apply]
  by_cases hx : 0 < x ∧ x < mu
  · have hx0 := hx.1
    have hp0 : 0 < mu / (mu + x) := by positivity
    have hp1 : mu / (mu + x) < 1 := (div_lt_one (by positivity)).2 (by linarith)
    have v1 : (volume.restrict (Ioo (0 : ℝ) 1)) {u | u ≤ mu / (mu + x)} = ENNReal.ofReal (mu / (mu + x)) := by
      have hmm : MeasurableSet {u : ℝ | u ≤ mu / (mu + x)} := measurableSet_Iic
      rw [Measure.restrict_apply hmm, show {u | u ≤ mu / (mu + x)} ∩ Ioo 0 1 = Ioc 0 (mu / (mu + x)) by
        ext u; simp only [mem_inter_iff, mem_ofPred_eq, mem_Ioo, mem_Ioc]
        exact ⟨fun ⟨a, b, _⟩ => ⟨b, a⟩, fun ⟨a, b⟩ => ⟨b, a, b.trans_lt hp1⟩⟩, Real.volume_Ioc, sub_zero]
    have v2 : (volume.restrict (Ioo (0 : ℝ) 1)) {u | ¬ u ≤ mu / (mu + x)} = ENNReal.ofReal (x / (mu + x)) := by
      have hmm : MeasurableSet {u : ℝ | ¬ u ≤ mu / (mu + x)} := measurableSet_Iic.compl
      rw [Measure.restrict_apply hmm, show {u | ¬ u ≤ mu / (mu + x)} ∩ Ioo 0 1 = Ioo (mu / (mu + x)) 1 by
        ext u; simp only [mem_inter_iff, mem_ofPred_eq, mem_Ioo, not_le]
        exact ⟨fun ⟨a, _, b⟩ => ⟨a, b⟩, fun ⟨a, b⟩ => ⟨a, hp0.trans a, b⟩⟩, Real.volume_Ioo]
      congr 1; field_simp; ring
    have hset : (volume.restrict (Ioo (0 : ℝ) 1)) (Prod.mk x ⁻¹' (H ⁻¹' B)) =
        B.indicator (fun _ => ENNReal.ofReal (mu / (mu + x))) x +
        ((fun x => mu * mu / x) ⁻¹' B).indicator (fun _ => ENNReal.ofReal (x / (mu + x))) x := by
      have hsplit : Prod.mk x ⁻¹' (H ⁻¹' B) = ({u | u ≤ mu / (mu + x)} ∩ {_u | x ∈ B}) ∪
          ({u | ¬ u ≤ mu / (mu + x)} ∩ {_u | mu * mu / x ∈ B}) := by
        ext u
        simp only [mem_preimage, hH, mem_union, mem_inter_iff, mem_ofPred_eq]
        by_cases hu : u ≤ mu / (mu + x) <;> simp [hu]
      have hmm : MeasurableSet ({u : ℝ | ¬ u ≤ mu / (mu + x)} ∩ {_u | mu * mu / x ∈ B}) :=
        (show MeasurableSet {u : ℝ | ¬ u ≤ mu / (mu + x)} from measurableSet_Iic.compl).inter (MeasurableSet.const _)
      rw [hsplit, measure_union (Set.disjoint_left.2 fun u h1 h2 => h2.1 h1.1) hmm]
      congr 1
      · by_cases hxB : x ∈ B
        · rw [indicator_of_mem hxB, ← v1]; congr 1; ext u; simp [hxB]
        · rw [indicator_of_notMem hxB, show {u | u ≤ mu / (mu + x)} ∩ {_u | x ∈ B} = ∅ by ext u; simp [hxB], measure_empty]
      · by_cases hxB : mu * mu / x ∈ B
        · rw [indicator_of_mem (by exact hxB), ← v2]; congr 1; ext u; simp [hxB]
        · rw [indicator_of_notMem (by exact hxB),
            show {u | ¬ u ≤ mu / (mu + x)} ∩ {_u | mu * mu / x ∈ B} = ∅ by ext u; simp [hxB], measure_empty]
    have hg : igPdf1 mu lambda x = invgaussPdf mu lambda x * ((mu + x) / mu) := if_pos hx
    have hg0 : 0 ≤ igPdf1 mu lambda x := by rw [hg]; have := hi0 x; positivity
    have ea : fa x = igPdf1 mu lambda x * (mu / (mu + x)) := by
      rw [hg]; simp only [hfa]; rw [if_pos hx]; field_simp
    have eb : fb x = igPdf1 mu lambda x * (x / (mu + x)) := by
      rw [hg]; simp only [hfb]; rw [if_pos hx]; field_simp
    rw [hset, mul_add]
    congr 1
    · by_cases hxB : x ∈ B
      · rw [indicator_of_mem hxB, indicator_of_mem hxB, ← ENNReal.ofReal_mul hg0, ea]
      · rw [indicator_of_notMem hxB, indicator_of_notMem hxB, mul_zero]
    · by_cases hxB : mu * mu / x ∈ B
      · rw [indicator_of_mem (by exact hxB), indicator_of_mem (by exact hxB), ← ENNReal.ofReal_mul hg0, eb]
      · rw [indicator_of_notMem (by exact hxB), indicator_of_notMem (by exact hxB), mul_zero]
  · have e1 : igPdf1 mu lambda x = 0 := if_neg hx
    have e2 : fa x = 0 := if_neg hx
    have e3 : fb x = 0 := if_neg hx
    rw [e1, ENNReal.ofReal_zero, zero_mul]
    simp only [indicator, e2, e3, ENNReal.ofReal_zero, ite_self, add_zero]

end
end Stats

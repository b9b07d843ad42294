import Verif.Spec.Combine
import Verif.Lemmas.Near
import Verif.Lemmas.DerivedLaw
import Verif.Lemmas.MultiLaw
import Verif.Lemmas.ProbIdeal
import Mathlib.MeasureTheory.Integral.Gamma
import Mathlib.Probability.Distributions.Gaussian.Real
import Mathlib.Probability.Distributions.Poisson.Basic

/-! Laws of sums, products, ratios and extremes of independent numbers. -/

open MeasureTheory Set
open scoped ENNReal

namespace Stats
open Fl Spec

section rules
variable {S : Type*} [MeasurableSpace S] {P : Measure S} [IsProbabilityMeasure P] {g h : S → Option (Fl × S)}
  {D E F : Measure ℝ} {ε η : ℝ}

omit [IsProbabilityMeasure P] in
theorem Spec.HasLaw.near [IsProbabilityMeasure D] (hg : HasLaw P g D) : NearLaw P g D 0 :=
  ⟨D, inferInstance, hg, fun A _ => by simp⟩

omit [IsProbabilityMeasure P] in
theorem Spec.NearLaw.exact [IsProbabilityMeasure D] (hg : NearLaw P g D 0) : HasLaw P g D := by
  obtain ⟨D', _, h, e⟩ := hg
  have : D' = D := Measure.ext fun A hA => by
    have := e A hA
    rw [abs_nonpos_iff, sub_eq_zero] at this
    exact (ENNReal.toReal_eq_toReal_iff' (by finiteness) (by finiteness)).1 this
  exact this ▸ h

theorem near_one [IsProbabilityMeasure D] (hg : NearLaw P g D ε) {f : ℝ → ℝ} (hf : Measurable f) (e : D.map f = E) :
    NearLaw P (one f g) E ε := by
  obtain ⟨D', _, h, hD⟩ := hg
  obtain ⟨X, N, hX, eX⟩ := hasLaw_iff.1 h
  refine ⟨D'.map f, Measure.isProbabilityMeasure_map hf.aemeasurable,
    hasLaw_iff.2 ⟨_, _, hX.map hf, eX.mono fun s hs => by rw [one, hs]⟩, fun A hA => ?_⟩
  rw [← e, map_measureReal_apply hf hA, map_measureReal_apply hf hA]
  exact hD _ (hf hA)

theorem near_two [IsProbabilityMeasure D] [IsProbabilityMeasure E] (hg : NearLaw P g D ε) (hh : NearLaw P h E η)
    {op : ℝ → ℝ → ℝ} (ho : Measurable fun p : ℝ × ℝ => op p.1 p.2) (e : (D.prod E).map (fun p => op p.1 p.2) = F) :
    NearLaw P (two op g h) F (ε + η) := by
  obtain ⟨D', _, h1, hD⟩ := hg
  obtain ⟨E', _, h2, hE⟩ := hh
  have ε0 : 0 ≤ ε := (abs_nonneg _).trans (hD ∅ .empty)
  have η0 : 0 ≤ η := (abs_nonneg _).trans (hE ∅ .empty)
  obtain ⟨X, N, hX, eX⟩ := hasLaw_iff.1 h1
  obtain ⟨Y, M, hY, eY⟩ := hasLaw_iff.1 h2
  refine ⟨(D'.prod E').map fun p => op p.1 p.2, Measure.isProbabilityMeasure_map ho.aemeasurable,
    hasLaw_iff.2 ⟨_, _, (hX.comp hY).map ho, ?_⟩, fun A hA => ?_⟩
  · filter_upwards [eX, hX.ae eY] with s h1 h2
    rw [two, h1]
    simp only [one, h2]
  · have w := (within_of_real hD).prod (within_of_real hE)
    rw [← ENNReal.ofReal_add ε0 η0] at w
    have := Measure.isProbabilityMeasure_map (μ := D'.prod E') ho.aemeasurable
    rw [← e]
    exact (w.map ho).real (by linarith) hA

theorem near_total [IsProbabilityMeasure D] (hg : NearLaw P g D ε) {L : ℕ → Measure ℝ} (hL : ∀ n, IsProbabilityMeasure (L n))
    (h0 : L 0 = D) (hs : ∀ n, ((L n).prod D).map (fun p => p.1 + p.2) = L (n + 1)) (n : ℕ) :
    NearLaw P (total g n) (L n) ((n + 1) * ε) := by
  induction n with
  | zero => simpa [total, h0] using hg
  | succ n ih =>
    have := hL n
    have := near_two ih hg (op := fun x y => x + y) (by fun_prop) (hs n)
    rw [total, show ((n + 1 : ℕ) + 1 : ℝ) * ε = (n + 1) * ε + ε by push_cast; ring]
    exact this

end rules

/-! ### sums -/

theorem densLaw_norm (mu : ℝ) {sigma : ℝ} (h : 0 < sigma) :
    densLaw (normPdf mu sigma) = ProbabilityTheory.gaussianReal mu ⟨sigma ^ 2, sq_nonneg _⟩ := by
  have h0 : (⟨sigma ^ 2, sq_nonneg _⟩ : NNReal) ≠ 0 := fun e => (pow_pos h 2).ne' (congrArg NNReal.toReal e)
  rw [ProbabilityTheory.gaussianReal_of_var_ne_zero _ h0, densLaw]
  congr 1; funext x
  rw [normPdf]
  show ENNReal.ofReal _ = ENNReal.ofReal ((√(2 * Real.pi * sigma ^ 2))⁻¹ * Real.exp (-(x - mu) ^ 2 / (2 * sigma ^ 2)))
  rw [Real.sqrt_mul (x := 2 * Real.pi) (by positivity), Real.sqrt_sq h.le, one_div]

theorem gammaPdf_zero (k θ : ℝ) {x : ℝ} (h : x ≤ 0) : gammaPdf k θ x = 0 := if_neg h.not_gt

theorem norm_add (m₁ m₂ : ℝ) {s₁ s₂ : ℝ} (h₁ : 0 < s₁) (h₂ : 0 < s₂) :
    ((densLaw (normPdf m₁ s₁)).prod (densLaw (normPdf m₂ s₂))).map (fun p => p.1 + p.2) =
      densLaw (normPdf (m₁ + m₂) √(s₁ ^ 2 + s₂ ^ 2)) := by
  rw [densLaw_norm m₁ h₁, densLaw_norm m₂ h₂, densLaw_norm _ (Real.sqrt_pos.2 (by positivity))]
  refine (ProbabilityTheory.gaussianReal_conv_gaussianReal (m₁ := m₁) (m₂ := m₂)).trans ?_
  congr 1
  refine NNReal.eq ?_
  exact (Real.sq_sqrt (by positivity)).symm

/-- one over `w` times a density at `y / w` integrates to one -/
theorem lintegral_rescale {F f : ℝ → ℝ} (hF : IsCdf F f) {w : ℝ} (hw : 0 < w) :
    ∫⁻ y, ENNReal.ofReal (1 / w * f (y / w)) = 1 := by
  have := hF.isProb
  have h := densLaw_map (f := f) (h := fun x => w * x) (ψ := fun y => y / w) (ψ' := fun _ => 1 / w) (s := univ) MeasurableSet.univ
    (by fun_prop) (fun y _ => ((hasDerivAt_id y).div_const w).hasDerivWithinAt) (fun y _ => by field_simp)
    (fun x hx => absurd ⟨w * x, mem_univ _, by field_simp⟩ hx)
  have : IsProbabilityMeasure ((densLaw f).map fun x => w * x) := Measure.isProbabilityMeasure_map (by fun_prop)
  have e := measure_univ (μ := (densLaw f).map fun x => w * x)
  rw [h, densLaw_apply _ MeasurableSet.univ, setLIntegral_univ] at e
  rw [← e]
  simp only [indicator_univ, abs_of_pos (one_div_pos.2 hw)]

theorem densLaw_shift (f : ℝ → ℝ) (y : ℝ) : (densLaw f).map (fun x => x + y) = densLaw fun w => f (w - y) := by
  rw [densLaw_map (ψ := fun w => w - y) (ψ' := fun _ => 1) (s := univ) MeasurableSet.univ (by fun_prop)
    (fun w _ => ((hasDerivAt_id w).sub_const y).hasDerivWithinAt) (fun w _ => by ring)
    (fun x hx => absurd ⟨x + y, mem_univ _, by ring⟩ hx)]
  simp

theorem gamma_add {a b θ : ℝ} (ha : 0 < a) (hb : 0 < b) (hθ : 0 < θ) :
    ((densLaw (gammaPdf a θ)).prod (densLaw (gammaPdf b θ))).map (fun p => p.1 + p.2) = densLaw (gammaPdf (a + b) θ) := by
  have := (isCdf_gamma ha hθ).isProb
  have hGa := Real.Gamma_pos_of_pos ha
  have hGb := Real.Gamma_pos_of_pos hb
  have hGc := Real.Gamma_pos_of_pos (add_pos ha hb)
  refine densLaw_mix (h := fun x y => x + y) (k := fun w y => gammaPdf a θ (w - y)) (measurable_gammaPdf b θ) (by fun_prop)
    ((measurable_gammaPdf a θ).comp (by fun_prop)) (fun y _ => densLaw_shift _ y) (.of_forall fun w => ?_)
  rcases le_or_gt w 0 with hw | hw
  · rw [gammaPdf, if_neg hw.not_gt, ENNReal.ofReal_zero]
    refine (lintegral_congr fun y => ?_).trans lintegral_zero
    rcases le_or_gt y 0 with hy | hy
    · rw [gammaPdf_zero b θ hy, ENNReal.ofReal_zero, mul_zero]
    · rw [gammaPdf, if_neg (by linarith), ENNReal.ofReal_zero, zero_mul]
  have e : ∀ y, ENNReal.ofReal (gammaPdf a θ (w - y)) * ENNReal.ofReal (gammaPdf b θ y) =
      ENNReal.ofReal (gammaPdf (a + b) θ w) * ENNReal.ofReal (1 / w * betaPdf b a (y / w)) := fun y => by
    rw [← ENNReal.ofReal_mul (gammaPdf_nonneg ha hθ _), ← ENNReal.ofReal_mul (gammaPdf_nonneg (add_pos ha hb) hθ _)]
    congr 1
    rw [betaPdf]
    split_ifs with h
    · have hy : 0 < y := (div_pos_iff_of_pos_right hw).1 h.1
      have hyw : y < w := (div_lt_one hw).1 h.2
      rw [gammaPdf, gammaPdf, gammaPdf, if_pos (by linarith), if_pos hy, if_pos hw, Real.div_rpow hy.le hw.le,
        show 1 - y / w = (w - y) / w by field_simp, Real.div_rpow (by linarith) hw.le, Real.rpow_add hθ,
        show -(w - y) / θ = -w / θ + -(-y / θ) by ring, Real.exp_add, Real.exp_neg, Spec.beta]
      have e1 : w ^ (a + b - 1) = w ^ (a - 1) * w ^ (b - 1) * w := by
        rw [← Real.rpow_add hw, ← Real.rpow_add_one hw.ne']
        congr 1; ring
      rw [e1, add_comm b a]
      have := Real.rpow_pos_of_pos hw (a - 1)
      have := Real.rpow_pos_of_pos hw (b - 1)
      have := Real.rpow_pos_of_pos hθ a
      have := Real.rpow_pos_of_pos hθ b
      field_simp
    · rcases le_or_gt y 0 with hy | hy
      · rw [gammaPdf_zero b θ hy]; simp
      · have : w ≤ y := by
          by_contra hc
          exact h ⟨div_pos hy hw, (div_lt_one hw).2 (not_le.1 hc)⟩
        rw [gammaPdf, if_neg (by linarith)]; simp
  simp_rw [e]
  have hm : Measurable (betaPdf b a) := by
    unfold betaPdf
    exact Measurable.ite (measurableSet_Ioi.inter measurableSet_Iio) (by fun_prop) measurable_const
  rw [lintegral_const_mul _ (by fun_prop), lintegral_rescale (isCdf_beta hb ha) hw, mul_one]

theorem chisq_add {a b : ℝ} (ha : 0 < a) (hb : 0 < b) :
    ((densLaw (chisqPdf a)).prod (densLaw (chisqPdf b))).map (fun p => p.1 + p.2) = densLaw (chisqPdf (a + b)) := by
  rw [chisqPdf_fun, chisqPdf_fun, chisqPdf_fun, add_div]
  exact gamma_add (half_pos ha) (half_pos hb) two_pos

theorem exp_gamma {rate : ℝ} (h : 0 < rate) : densLaw (expPdf rate) = densLaw (gammaPdf 1 (1 / rate)) := by
  refine densLaw_congr ?_
  filter_upwards [compl_mem_ae_iff.2 (measure_singleton (0 : ℝ))] with x hx
  have hx : x ≠ 0 := hx
  rw [expPdf, gammaPdf]
  rcases hx.lt_or_gt with h0 | h0
  · rw [if_neg h0.not_ge, if_neg h0.not_gt]
  · rw [if_pos h0.le, if_pos h0]
    simp
    field_simp

/-! ### differences, products and ratios -/

theorem exp_sub {rate : ℝ} (h : 0 < rate) :
    ((densLaw (expPdf rate)).prod (densLaw (expPdf rate))).map (fun p => p.1 - p.2) = densLaw (laplacePdf 0 (1 / rate)) := by
  have := (isCdf_exp h).isProb
  have hm : Measurable (expPdf rate) := by
    unfold expPdf
    exact Measurable.ite measurableSet_Ici (by fun_prop) measurable_const
  refine densLaw_mix (h := fun x y => x - y) (k := fun w y => expPdf rate (w + y)) hm (by fun_prop)
    (hm.comp (by fun_prop)) (fun y _ => ?_) (.of_forall fun w => ?_)
  · have := densLaw_shift (expPdf rate) (-y)
    simpa only [← sub_eq_add_neg, sub_neg_eq_add] using this
  have e : ∀ y, ENNReal.ofReal (expPdf rate (w + y)) * ENNReal.ofReal (expPdf rate y) =
      (Ici (Max.max 0 (-w))).indicator (fun y => ENNReal.ofReal (rate ^ 2 * Real.exp (-rate * w) * Real.exp (-(2 * rate) * y))) y := by
    intro y
    by_cases hy : y ∈ Ici (Max.max 0 (-w))
    · have h1 : 0 ≤ y := (le_max_left _ _).trans (mem_Ici.1 hy)
      have h2 : -w ≤ y := (le_max_right _ _).trans (mem_Ici.1 hy)
      rw [indicator_of_mem hy, expPdf, expPdf, if_pos (by linarith), if_pos h1, ← ENNReal.ofReal_mul (by positivity)]
      congr 1
      rw [show -rate * (w + y) = -rate * w + -rate * y by ring, Real.exp_add,
        show -(2 * rate) * y = -rate * y + -rate * y by ring, Real.exp_add]
      ring
    · rw [indicator_of_notMem hy, expPdf, expPdf]
      rw [mem_Ici, max_le_iff, not_and_or] at hy
      rcases hy with hy | hy
      · rw [if_neg hy]; simp
      · rw [if_neg (fun c => hy (by linarith))]; simp
  simp_rw [e]
  rw [lintegral_indicator measurableSet_Ici, setLIntegral_congr Ioi_ae_eq_Ici.symm]
  have hi := integrableOn_exp_mul_Ioi (a := -(2 * rate)) (by linarith) (Max.max 0 (-w))
  rw [← ofReal_integral_eq_lintegral_ofReal (hi.const_mul _) (.of_forall fun y => by positivity),
    integral_const_mul, integral_exp_mul_Ioi (by linarith)]
  congr 1
  rw [laplacePdf, sub_zero]
  rcases le_total 0 w with hw | hw
  · rw [max_eq_left (by linarith), abs_of_nonneg hw]
    simp
    rw [mul_comm w rate]
    field_simp
  · rw [max_eq_right (by linarith), abs_of_nonpos hw, mul_assoc, mul_div_assoc', mul_neg, ← Real.exp_add]
    rw [show - -w / (1 / rate) = -rate * w + -(2 * rate) * -w by field_simp; ring]
    field_simp

theorem exp_log_ratio {rate : ℝ} (h : 0 < rate) :
    ((densLaw (expPdf rate)).prod (densLaw (expPdf rate))).map (fun p => Real.log (p.1 / p.2)) = densLaw (logisPdf 0 1) := by
  have hθ : 0 < 1 / rate := one_div_pos.2 h
  have := (isCdf_gamma one_pos hθ).isProb
  have hg : ∀ x, 0 < x → gammaPdf 1 (1 / rate) x = rate * Real.exp (-(rate * x)) := fun x hx => by
    rw [gammaPdf, if_pos hx, sub_self, Real.rpow_zero, Real.rpow_one, Real.Gamma_one,
      show -x / (1 / rate) = -(rate * x) by field_simp]
    field_simp
  rw [exp_gamma h]
  refine gamma_mix (h := fun x y => Real.log (x / y)) (k := fun w y => |y * Real.exp w| * gammaPdf 1 (1 / rate) (y * Real.exp w))
    one_pos hθ (by fun_prop) ?_ (C := fun w => rate ^ 2 * Real.exp w) (s := fun _ => 2) (r := fun w => rate * (1 + Real.exp w))
    ?_ ?_ ?_ ?_ ?_ ?_ ?_
  · exact Measurable.mul (by fun_prop) ((measurable_gammaPdf _ _).comp (by fun_prop))
  · intro y hy
    rw [densLaw_map (ψ := fun w => y * Real.exp w) (ψ' := fun w => y * Real.exp w) (s := univ) MeasurableSet.univ (by fun_prop)]
    · congr 1; funext w; rw [indicator_of_mem (mem_univ w)]
    · exact fun w _ => ((Real.hasDerivAt_exp w).const_mul y).hasDerivWithinAt
    · intro w _
      rw [mul_div_cancel_left₀ _ hy.ne', Real.log_exp]
    · refine fun x hx => gammaPdf_zero _ _ ?_
      by_contra hc
      have hc : 0 < x := not_le.1 hc
      exact hx ⟨Real.log (x / y), mem_univ _, by
        show y * Real.exp (Real.log (x / y)) = x
        rw [Real.exp_log (div_pos hc hy)]; field_simp⟩
  · intro w y hy
    have := Real.exp_pos w
    rw [abs_of_pos (by positivity), hg _ (by positivity), hg _ hy,
      show -(rate * (1 + Real.exp w) * y) = -(rate * (y * Real.exp w)) + -(rate * y) by ring, Real.exp_add,
      show (2 : ℝ) - 1 = 1 by norm_num, Real.rpow_one]
    ring
  · intro w y hy
    exact mul_nonneg (abs_nonneg _) (gammaPdf_nonneg one_pos hθ _)
  · intro w; positivity
  · intro w _; norm_num
  · intro w _; positivity
  · intro w
    rw [logisPdf, Real.Gamma_two, Real.rpow_two,
      show -((w - 0) / 1) = -w by ring, Real.exp_neg]
    have := Real.exp_pos w
    field_simp
    ring

theorem norm_ratio {s₁ s₂ : ℝ} (h₁ : 0 < s₁) (h₂ : 0 < s₂) :
    ((densLaw (normPdf 0 s₁)).prod (densLaw (normPdf 0 s₂))).map (fun p => p.1 / p.2) = densLaw (cauchyPdf 0 (s₁ / s₂)) := by
  have := (isCdf_norm 0 h₁).isProb
  have e0 : densLaw (normPdf 0 s₂) = densLaw fun y => if y = 0 then 0 else normPdf 0 s₂ y := by
    refine densLaw_congr ?_
    filter_upwards [compl_mem_ae_iff.2 (measure_singleton (0 : ℝ))] with y hy
    exact (if_neg (show y ≠ 0 from hy)).symm
  rw [e0]
  have hm : Measurable fun y => if y = 0 then 0 else normPdf 0 s₂ y :=
    Measurable.ite (measurableSet_singleton 0) measurable_const (measurable_normPdf 0 s₂)
  refine densLaw_mix (h := fun x y => x / y) (k := fun w y => |y| * normPdf 0 s₁ (y * w)) hm (by fun_prop)
    (Measurable.mul (by fun_prop) ((measurable_normPdf 0 s₁).comp (by fun_prop))) (fun y hy => ?_) (.of_forall fun w => ?_)
  · have hy : y ≠ 0 := fun c => hy (if_pos c)
    rw [densLaw_map (ψ := fun w => y * w) (ψ' := fun _ => y) (s := univ) MeasurableSet.univ (by fun_prop)]
    · congr 1; funext w; rw [indicator_of_mem (mem_univ w)]
    · exact fun w _ => by simpa using (hasDerivAt_id w).const_mul y
    · intro w _; field_simp
    · exact fun x hx => absurd ⟨x / y, mem_univ _, by field_simp⟩ hx
  set c := (w ^ 2 / s₁ ^ 2 + 1 / s₂ ^ 2) / 2 with hc
  have c0 : 0 < c := by positivity
  have e : ∀ y, ENNReal.ofReal (|y| * normPdf 0 s₁ (y * w)) * ENNReal.ofReal (if y = 0 then 0 else normPdf 0 s₂ y) =
      ENNReal.ofReal (1 / (2 * Real.pi * s₁ * s₂) * (|y| * Real.exp (-c * |y| ^ 2))) := fun y => by
    have hs : √(2 * Real.pi) * √(2 * Real.pi) = 2 * Real.pi := Real.mul_self_sqrt (by positivity)
    have h0 : (if y = 0 then (0 : ℝ) else normPdf 0 s₂ y) * |y| = normPdf 0 s₂ y * |y| := by
      split_ifs with h
      · simp [h]
      · rfl
    have h1 : 0 ≤ |y| * normPdf 0 s₁ (y * w) := by rw [normPdf]; positivity
    rw [← ENNReal.ofReal_mul h1, mul_right_comm, mul_comm |y|, h0, normPdf, normPdf, sq_abs]
    congr 1
    have h2 : Real.exp (-c * y ^ 2) = Real.exp (-((y - 0) ^ 2) / (2 * s₂ ^ 2)) * Real.exp (-((y * w - 0) ^ 2) / (2 * s₁ ^ 2)) := by
      rw [← Real.exp_add, hc]
      congr 1
      field_simp
      ring
    have h3 : 1 / (2 * Real.pi * s₁ * s₂) = 1 / (√(2 * Real.pi) * s₁) * (1 / (√(2 * Real.pi) * s₂)) := by
      rw [div_mul_div_comm, one_mul, show √(2 * Real.pi) * s₁ * (√(2 * Real.pi) * s₂) = √(2 * Real.pi) * √(2 * Real.pi) * s₁ * s₂ by
        ring, hs]
    rw [h2, h3]
    ring
  simp_rw [e]
  have hi : Integrable fun y : ℝ => |y| * Real.exp (-c * |y| ^ 2) := by
    refine (integrable_mul_exp_neg_mul_sq c0).abs.congr (.of_forall fun y => ?_)
    simp only [abs_mul, Real.abs_exp, sq_abs]
  rw [← ofReal_integral_eq_lintegral_ofReal (hi.const_mul _) (.of_forall fun y => by positivity), integral_const_mul,
    integral_comp_abs (f := fun y => y * Real.exp (-c * y ^ 2))]
  have hg := integral_rpow_mul_exp_neg_mul_rpow (p := 2) (q := 1) two_pos (by norm_num) c0
  simp only [Real.rpow_one, Real.rpow_two] at hg
  rw [hg, show ((1 : ℝ) + 1) / 2 = 1 by norm_num, show -((1 : ℝ) + 1) / 2 = -1 by norm_num, Real.Gamma_one, Real.rpow_neg_one]
  congr 1
  rw [cauchyPdf, hc]
  field_simp
  ring

/-! ### extremes -/

theorem law_of_cdf {H h : ℝ → ℝ} (hH : IsCdf H h) {μ : Measure ℝ} [IsProbabilityMeasure μ]
    (e : ∀ x, μ.real (Iic x) = H x) : μ = densLaw h := by
  have := hH.isProb
  refine Measure.ext_of_Iic _ _ fun x => ?_
  rw [hH.densLaw_Iic, ← e, ofReal_measureReal]

theorem IsCdf.real_Iic {F f : ℝ → ℝ} (hF : IsCdf F f) (x : ℝ) : (densLaw f).real (Iic x) = F x := by
  rw [measureReal_def, hF.densLaw_Iic, ENNReal.toReal_ofReal (hF.nonneg' x)]

theorem min_law {F G H f g h : ℝ → ℝ} (hF : IsCdf F f) (hG : IsCdf G g) (hH : IsCdf H h)
    (e : ∀ x, 1 - H x = (1 - F x) * (1 - G x)) :
    ((densLaw f).prod (densLaw g)).map (fun p => Min.min p.1 p.2) = densLaw h := by
  have := hF.isProb
  have := hG.isProb
  have hm : Measurable fun p : ℝ × ℝ => Min.min p.1 p.2 := by fun_prop
  have := Measure.isProbabilityMeasure_map (μ := (densLaw f).prod (densLaw g)) hm.aemeasurable
  refine law_of_cdf hH fun x => ?_
  rw [map_measureReal_apply hm measurableSet_Iic]
  have e1 : (fun p : ℝ × ℝ => Min.min p.1 p.2) ⁻¹' Iic x = (Ioi x ×ˢ Ioi x)ᶜ := by
    ext p
    simp only [mem_preimage, mem_Iic, min_le_iff, mem_compl_iff, mem_prod, mem_Ioi, not_and_or, not_lt]
  have c : ∀ {K k : ℝ → ℝ}, IsCdf K k → IsProbabilityMeasure (densLaw k) → (densLaw k).real (Ioi x) = 1 - K x := fun {K k} hK _ => by
    rw [← compl_Iic, probReal_compl_eq_one_sub measurableSet_Iic, hK.real_Iic]
  rw [e1, probReal_compl_eq_one_sub (measurableSet_Ioi.prod measurableSet_Ioi), measureReal_prod_prod, c hF inferInstance,
    c hG inferInstance, ← e]
  ring

theorem max_law {F G H f g h : ℝ → ℝ} (hF : IsCdf F f) (hG : IsCdf G g) (hH : IsCdf H h) (e : ∀ x, H x = F x * G x) :
    ((densLaw f).prod (densLaw g)).map (fun p => Max.max p.1 p.2) = densLaw h := by
  have := hF.isProb
  have := hG.isProb
  have hm : Measurable fun p : ℝ × ℝ => Max.max p.1 p.2 := by fun_prop
  have := Measure.isProbabilityMeasure_map (μ := (densLaw f).prod (densLaw g)) hm.aemeasurable
  refine law_of_cdf hH fun x => ?_
  rw [map_measureReal_apply hm measurableSet_Iic]
  have e1 : (fun p : ℝ × ℝ => Max.max p.1 p.2) ⁻¹' Iic x = Iic x ×ˢ Iic x := by
    ext p
    simp only [mem_preimage, mem_Iic, max_le_iff, mem_prod]
  rw [e1, measureReal_prod_prod, hF.real_Iic, hG.real_Iic, e]

theorem norm_sq : (densLaw (normPdf 0 1)).map (fun x => x ^ 2) = densLaw (chisqPdf 1) := by
  have := (isCdf_norm 0 one_pos).isProb
  have hm : Measurable fun x : ℝ => x ^ 2 := by fun_prop
  have := Measure.isProbabilityMeasure_map (μ := densLaw (normPdf 0 1)) hm.aemeasurable
  have hH : IsCdf (fun x => if 0 < x then 2 * Phi √x - 1 else 0) (chisqPdf 1) := by
    refine isCdf_Ioi (G := fun x => 2 * Phi √x - 1) (g := fun x => x ^ ((1 : ℝ) / 2 - 1) * Real.exp (-x / 2) / (2 ^ ((1 : ℝ) / 2) * Real.Gamma (1 / 2)))
      (fun x hx => ?_) (fun x hx => ?_) ?_ ?_
    · have h1 := (((hasDerivAt_Phi √x).comp x (Real.hasDerivAt_sqrt hx.ne')).const_mul 2).sub_const 1
      refine h1.congr_deriv ?_
      have hs : √x ^ 2 = x := Real.sq_sqrt hx.le
      rw [normPdf, sub_zero, hs, show (1 : ℝ) / 2 - 1 = -(1 / 2) by norm_num, Real.rpow_neg hx.le, ← Real.sqrt_eq_rpow,
        ← Real.sqrt_eq_rpow, Real.Gamma_one_half_eq, Real.sqrt_mul two_pos.le]
      have := Real.sqrt_pos.2 hx
      have := Real.sqrt_pos.2 Real.pi_pos
      field_simp
    · have := Real.Gamma_pos_of_pos (show (0 : ℝ) < 1 / 2 by norm_num)
      positivity
    · have h1 : Filter.Tendsto (fun x => 2 * Phi √x - 1) (nhds 0) (nhds (2 * Phi √0 - 1)) := by
        have hc : Continuous Phi := continuous_iff_continuousAt.2 fun z => (hasDerivAt_Phi z).continuousAt
        exact ((hc.comp Real.continuous_sqrt).const_mul 2 |>.sub continuous_const).tendsto 0
      rw [Real.sqrt_zero, show Phi 0 = 1 / 2 by have := Phi_neg 0; rw [neg_zero] at this; linarith] at h1
      simpa using h1.mono_left nhdsWithin_le_nhds
    · have h1 := ((tendsto_Phi_atTop.comp Real.tendsto_sqrt_atTop).const_mul 2).sub_const 1
      norm_num at h1
      exact h1
  refine law_of_cdf hH fun x => ?_
  rw [map_measureReal_apply hm measurableSet_Iic]
  split_ifs with hx
  · have e : (fun x : ℝ => x ^ 2) ⁻¹' Iic x = Icc (-√x) √x := by
      ext z
      rw [mem_preimage, mem_Iic, mem_Icc, Real.sq_le hx.le]
    have e2 : Icc (-√x) √x =ᵐ[densLaw (normPdf 0 1)] Ioc (-√x) √x :=
      (withDensity_absolutelyContinuous _ _).ae_eq Ioc_ae_eq_Icc.symm
    have h0 := Real.sqrt_nonneg x
    have hc := fun z => (isCdf_norm 0 one_pos).real_Iic z
    simp only [sub_zero, div_one] at hc
    rw [e, measureReal_congr e2, show Ioc (-√x) √x = Iic √x \ Iic (-√x) by
        ext z; simp only [mem_Ioc, mem_sdiff, mem_Iic, not_le, and_comm], measureReal_sdiff (Iic_subset_Iic.2 (by linarith)) measurableSet_Iic, hc, hc,
      Phi_neg]
    ring
  · have e : (fun x : ℝ => x ^ 2) ⁻¹' Iic x ⊆ {0} := fun z hz => by
      have : z ^ 2 ≤ x := hz
      have := sq_nonneg z
      exact pow_eq_zero_iff (two_ne_zero) |>.1 (by linarith)
    have h0 : densLaw (normPdf 0 1) {0} = 0 := withDensity_absolutelyContinuous _ _ (measure_singleton 0)
    rw [measureReal_def, measure_mono_null e h0, ENNReal.toReal_zero]

end Stats

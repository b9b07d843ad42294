import Verif.Lemmas.Law
import Verif.Spec.Multi
import Mathlib.MeasureTheory.Constructions.Pi
import Mathlib.MeasureTheory.Integral.Pi
import Mathlib.Probability.Distributions.Gaussian.Real
import Mathlib.Probability.ProductMeasure

/-! Laws of random vectors: independent components, affine images, moments. -/

set_option linter.unusedSectionVars false
open MeasureTheory Set Matrix
open scoped ENNReal

namespace Stats
open Fl Spec

section pi

/-- the integral of a product of functions of the single coordinates -/
theorem lintegral_pi_prod : ∀ {n : ℕ} {f : Fin n → ℝ → ℝ≥0∞} (_ : ∀ i, Measurable (f i)),
    ∫⁻ x : Fin n → ℝ, ∏ i, f i (x i) = ∏ i, ∫⁻ t, f i t
  | 0, f, _ => by simp [volume_pi, Measure.pi_of_empty _ Fin.elim0]
  | n + 1, f, hf => by
    have hp := (volume_preserving_piFinSuccAbove (fun _ : Fin (n + 1) => ℝ) 0)
    have e := (hp.symm (MeasurableEquiv.piFinSuccAbove (fun _ : Fin (n + 1) => ℝ) 0)).lintegral_comp
      (f := fun x : Fin (n + 1) → ℝ => ∏ i, f i (x i))
      (Finset.measurable_fun_prod _ fun i _ => (hf i).comp (measurable_pi_apply i))
    rw [← e, Fin.prod_univ_succ, ← lintegral_pi_prod fun i => hf i.succ]
    simp_rw [Fin.prod_univ_succ]
    exact lintegral_prod_mul (μ := (volume : Measure ℝ)) (ν := (volume : Measure (Fin n → ℝ))) (f := f 0)
      (g := fun x : Fin n → ℝ => ∏ i, f i.succ (x i)) (hf 0).aemeasurable
      (Finset.measurable_fun_prod _ fun i _ => (hf i.succ).comp (measurable_pi_apply i)).aemeasurable

/-- independent components with densities have the product density -/
theorem pi_densLaw {n : ℕ} {f : Fin n → ℝ → ℝ} (hf : ∀ i, Measurable (f i)) (h0 : ∀ i x, 0 ≤ f i x)
    [∀ i, SigmaFinite (densLaw (f i))] :
    Measure.pi (fun i => densLaw (f i)) = densLawV fun x => ∏ i, f i (x i) := by
  refine Measure.pi_eq fun s hs => ?_
  rw [densLawV, withDensity_apply _ (MeasurableSet.univ_pi hs), ← lintegral_indicator (MeasurableSet.univ_pi hs)]
  have e : (univ.pi s).indicator (fun x : Fin n → ℝ => ENNReal.ofReal (∏ i, f i (x i))) =
      fun x => ∏ i, (s i).indicator (fun t => ENNReal.ofReal (f i t)) (x i) := by
    funext x
    by_cases hx : x ∈ univ.pi s
    · rw [indicator_of_mem hx, ENNReal.ofReal_prod_of_nonneg fun i _ => h0 i _]
      exact Finset.prod_congr rfl fun i _ => by rw [indicator_of_mem (hx i trivial)]
    · rw [indicator_of_notMem hx]
      obtain ⟨i, hi⟩ : ∃ i, x i ∉ s i := by simpa [Set.mem_pi] using hx
      rw [Finset.prod_eq_zero (Finset.mem_univ i)]
      rw [indicator_of_notMem hi]
  rw [e]
  refine (lintegral_pi_prod (f := fun i => (s i).indicator fun t => ENNReal.ofReal (f i t))
    fun i => (ENNReal.measurable_ofReal.comp (hf i)).indicator (hs i)).trans ?_
  refine Finset.prod_congr rfl fun i _ => ?_
  rw [lintegral_indicator (hs i), densLaw, withDensity_apply _ (hs i)]

/-- an affine image of a law with a density -/
theorem densLawV_affine {n : ℕ} {f : (Fin n → ℝ) → ℝ} (hf : Measurable f) (mu : Fin n → ℝ) {L : Matrix (Fin n) (Fin n) ℝ}
    (hL : L.det ≠ 0) :
    (densLawV f).map (fun z => mu + L *ᵥ z) = densLawV fun x => |L.det|⁻¹ * f (L⁻¹ *ᵥ (x - mu)) := by
  have hlin : ∀ A : Matrix (Fin n) (Fin n) ℝ, Measurable fun z : Fin n → ℝ => A *ᵥ z := fun A =>
    (toLin' A).continuous_of_finiteDimensional.measurable
  have hm : Measurable fun z : Fin n → ℝ => mu + L *ᵥ z := (hlin L).const_add mu
  have hg : Measurable fun x : Fin n → ℝ => L⁻¹ *ᵥ (x - mu) := (hlin L⁻¹).comp (measurable_id.sub_const mu)
  have hinv : ∀ z, L⁻¹ *ᵥ (mu + L *ᵥ z - mu) = z := by
    intro z
    rw [add_sub_cancel_left, Matrix.mulVec_mulVec, nonsing_inv_mul _ (isUnit_iff_ne_zero.2 hL), Matrix.one_mulVec]
  have hvol : Measure.map (fun z : Fin n → ℝ => mu + L *ᵥ z) volume = ENNReal.ofReal |L.det|⁻¹ • volume := by
    have h1 := Real.map_matrix_volume_pi_eq_smul_volume_pi hL
    have h2 : (fun z : Fin n → ℝ => mu + L *ᵥ z) = (fun y => mu + y) ∘ fun z => L *ᵥ z := rfl
    rw [h2, ← Measure.map_map (measurable_const_add mu) (hlin L)]
    have h3 : (fun z : Fin n → ℝ => L *ᵥ z) = ⇑(toLin' L) := by funext z; rw [toLin'_apply]
    rw [h3, h1, Measure.map_smul, map_add_left_eq_self, abs_inv]
  have hF : Measurable fun x => ENNReal.ofReal (|L.det|⁻¹ * f (L⁻¹ *ᵥ (x - mu))) :=
    ENNReal.measurable_ofReal.comp ((hf.comp hg).const_mul _)
  ext B hB
  rw [Measure.map_apply hm hB, densLawV, densLawV, withDensity_apply _ (hm hB), withDensity_apply _ hB]
  have e1 : ∀ x, ENNReal.ofReal (|L.det|⁻¹ * f (L⁻¹ *ᵥ (x - mu))) =
      ENNReal.ofReal |L.det|⁻¹ * ENNReal.ofReal (f (L⁻¹ *ᵥ (x - mu))) := fun x => by
    rw [ENNReal.ofReal_mul (by positivity)]
  have hF2 : Measurable fun x => ENNReal.ofReal (f (L⁻¹ *ᵥ (x - mu))) := ENNReal.measurable_ofReal.comp (hf.comp hg)
  simp_rw [e1]
  rw [lintegral_const_mul _ hF2, ← smul_eq_mul, ← lintegral_smul_measure, ← Measure.restrict_smul, ← hvol]
  rw [setLIntegral_map hB hF2 hm]
  simp_rw [hinv]

end pi

section draw
variable {S : Type*} [MeasurableSpace S] {P : Measure S}

theorem hasLawV_iff {ι : Type*} {g : S → Option ((ι → Fl) × S)} {D : Measure (ι → ℝ)} :
    HasLawV P g D ↔ ∃ X N, Draw P X N D ∧ ∀ᵐ s ∂P, g s = some (fun i => fin (X s i), N s) :=
  ⟨fun ⟨X, N, a, b, c, d⟩ => ⟨X, N, ⟨a, b, d⟩, c⟩, fun ⟨X, N, h, c⟩ => ⟨X, N, h.mX, h.mN, c, h.law⟩⟩

/-- one more independent component -/
theorem Draw.cons {n : ℕ} {X : S → ℝ} {Y : S → Fin n → ℝ} {N M : S → S} {D : Fin (n + 1) → Measure ℝ}
    [∀ i, SigmaFinite (D i)] [SFinite P] (h : Draw P X N (D 0)) (h' : Draw P Y M (Measure.pi fun i => D i.succ)) :
    Draw P (fun s => (Fin.cons (X s) (Y (N s)) : Fin (n + 1) → ℝ)) (fun s => M (N s)) (Measure.pi D) := by
  have hp := (measurePreserving_piFinSuccAbove D 0).symm (MeasurableEquiv.piFinSuccAbove (fun _ => ℝ) 0)
  have := (h.comp h').map (f := (MeasurableEquiv.piFinSuccAbove (fun _ : Fin (n + 1) => ℝ) 0).symm)
    (MeasurableEquiv.measurable _)
  rw [show (D 0).prod (Measure.pi fun i => D i.succ) = (D 0).prod (Measure.pi fun j => D (Fin.succAbove 0 j)) from rfl,
    hp.map_eq] at this
  convert! this using 2 with s
  funext i
  refine Fin.cases ?_ (fun i => ?_) i <;> simp [MeasurableEquiv.piFinSuccAbove]

theorem Draw.nil [IsProbabilityMeasure P] (D : Fin 0 → Measure ℝ) :
    Draw P (fun _ => (Fin.elim0 : Fin 0 → ℝ)) (fun s => s) (Measure.pi D) := by
  refine ⟨measurable_const, measurable_id, ?_⟩
  have : Measure.pi D = Measure.dirac (Fin.elim0 : Fin 0 → ℝ) := by
    rw [Measure.pi_of_empty D Fin.elim0]
  rw [this, Measure.dirac_prod]

end draw

section normal
variable {n : ℕ}

theorem densLaw_norm01 : densLaw (normPdf 0 1) = ProbabilityTheory.gaussianReal 0 1 := by
  rw [ProbabilityTheory.gaussianReal_of_var_ne_zero _ one_ne_zero, densLaw]
  congr 1; funext x
  rw [ProbabilityTheory.gaussianPDF, ProbabilityTheory.gaussianPDFReal, normPdf]
  simp

/-- the density of a vector of independent standard normal numbers -/
theorem prod_normPdf (x : Fin n → ℝ) :
    ∏ i, normPdf 0 1 (x i) = (2 * Real.pi) ^ (-(n : ℝ) / 2) * Real.exp (-(x ⬝ᵥ x) / 2) := by
  have h2 : (0 : ℝ) < 2 * Real.pi := by positivity
  have e : ∀ i, normPdf 0 1 (x i) = (2 * Real.pi) ^ (-(1 : ℝ) / 2) * Real.exp (-(x i * x i) / 2) := by
    intro i
    rw [normPdf, show (-(1 : ℝ) / 2) = -(1 / 2) by ring, Real.rpow_neg h2.le, ← Real.sqrt_eq_rpow, one_div, mul_one,
      sub_zero, sq]
    norm_num
  rw [Finset.prod_congr rfl fun i _ => e i, Finset.prod_mul_distrib, Finset.prod_const, ← Real.exp_sum, Finset.card_univ,
    Fintype.card_fin, ← Real.rpow_natCast, ← Real.rpow_mul h2.le]
  congr 2
  · ring
  · rw [dotProduct, ← Finset.sum_div, Finset.sum_neg_distrib]

/-- the law of an affine image of standard normal numbers -/
theorem mvn_law {K : ℕ} (mu : Fin K → ℝ) {Sigma L : Matrix (Fin K) (Fin K) ℝ} (hL : L * Lᵀ = Sigma) (hdet : L.det ≠ 0) :
    (Measure.pi fun _ : Fin K => densLaw (normPdf 0 1)).map (fun z => mu + L *ᵥ z) = densLawV (mvnPdf mu Sigma) := by
  have hm : Measurable (normPdf 0 1) := by unfold normPdf; fun_prop
  have : IsProbabilityMeasure (densLaw (normPdf 0 1)) := by rw [densLaw_norm01]; infer_instance
  have h0 : ∀ x, 0 ≤ normPdf 0 1 x := fun x => by rw [normPdf]; positivity
  rw [pi_densLaw (f := fun _ => normPdf 0 1) (fun _ => hm) (fun _ => h0), densLawV_affine
    (f := fun x : Fin K → ℝ => ∏ i, normPdf 0 1 (x i))
    (Finset.measurable_fun_prod _ fun i _ => hm.comp (measurable_pi_apply i)) mu hdet]
  congr 1; funext x
  rw [prod_normPdf, mvnPdf, ← hL, det_mul, det_transpose, Matrix.mul_inv_rev, ← transpose_nonsing_inv]
  have e1 : (L.det * L.det) ^ (-(1 : ℝ) / 2) = |L.det|⁻¹ := by
    rw [← abs_mul_abs_self, ← sq, ← Real.rpow_natCast, ← Real.rpow_mul (abs_nonneg _)]
    norm_num
    exact Real.rpow_neg_one _
  have e2 : (x - mu) ⬝ᵥ (L⁻¹ᵀ * L⁻¹) *ᵥ (x - mu) = (L⁻¹ *ᵥ (x - mu)) ⬝ᵥ (L⁻¹ *ᵥ (x - mu)) := by
    rw [← Matrix.mulVec_mulVec, dotProduct_mulVec, vecMul_transpose]
  rw [e1, e2]; ring

end normal
theorem pi_split {n K : ℕ} (pos : Fin n × Fin K ≃ Fin (n * K)) (D : Measure ℝ) [IsProbabilityMeasure D] :
    (Measure.pi fun _ : Fin (n * K) => D).map (fun z (r : Fin n) (j : Fin K) => z (pos (r, j))) =
      Measure.pi fun _ => Measure.pi fun _ => D := by
  have h1 := Measure.pi_map_piCongrLeft (β := fun _ => ℝ) pos.symm (fun _ : Fin n × Fin K => D)
  have h2 := Measure.infinitePi_map_curry (ι := Fin n) (κ := Fin K) (X := ℝ) (fun _ _ => D)
  rw [Measure.infinitePi_eq_pi, Measure.infinitePi_eq_pi] at h2
  simp_rw [Measure.infinitePi_eq_pi] at h2
  rw [← h2, ← h1, Measure.map_map (MeasurableEquiv.measurable _) (MeasurableEquiv.measurable _)]
  congr 1
  funext z r j
  simp [MeasurableEquiv.piCongrLeft, Equiv.piCongrLeft, MeasurableEquiv.curry]

end Stats

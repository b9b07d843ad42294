import Verif.Spec.Hier
import Verif.Lemmas.Near
import Verif.Props.C29
import Mathlib.MeasureTheory.Measure.GiryMonad

/-! Laws of draws with a drawn parameter. -/

open MeasureTheory Set
open scoped ENNReal

namespace Stats
open Fl Spec

section continuous
variable {S β : Type*} [MeasurableSpace S] [MeasurableSpace β] {P : Measure S} [IsProbabilityMeasure P]
  {g : S → Option (Fl × S)} {h : Fl → S → Option (Fl × S)} {ε η : ℝ≥0∞}

/-- The inner generator is a function of its parameter and of numbers drawn without looking at the parameter. -/
theorem near_hier {W : Measure ℝ} [IsProbabilityMeasure W] {E : Measure β} [IsProbabilityMeasure E] {F : Measure ℝ}
    {X : S → ℝ} {N : S → S} {U : S → β} {M : S → S} (hg : NearDraw P X N W ε) (eg : ∀ᵐ s ∂P, g s = some (fin (X s), N s))
    (hU : NearDraw P U M E η) {T : Set ℝ} (hT : ∀ᵐ θ ∂W, θ ∈ T) {op : ℝ → β → ℝ}
    (ho : Measurable fun p : ℝ × β => op p.1 p.2)
    (eh : ∀ᵐ s ∂P, ∀ θ ∈ T, h (fin θ) s = some (fin (op θ (U s)), M s))
    (e : ∀ A, MeasurableSet A → ∫⁻ θ, E.map (op θ) A ∂W = F A) :
    ∃ Y L, NearDraw P Y L F (ε + η) ∧ ∀ᵐ s ∂P, hier g h s = some (fin (Y s), L s) := by
  have hd := (hg.comp hU).map ho
  have hF : (W.prod E).map (fun p => op p.1 p.2) = F := Measure.ext fun A hA => by
    rw [Measure.map_apply ho hA, Measure.prod_apply (ho hA), ← e A hA]
    refine lintegral_congr fun θ => ?_
    have mo : Measurable (op θ) := ho.comp measurable_prodMk_left
    rw [Measure.map_apply mo hA]
    rfl
  rw [hF] at hd
  refine ⟨_, _, hd, ?_⟩
  filter_upwards [eg, hg.ae eh, hg.ae_val hT] with s h1 h2 h3
  rw [hier, h1, Option.bind_some, h2 _ h3]

/-- A parameter with density `w`, an observation with density `k θ`. -/
theorem mix_dens {E : Measure β} {w p : ℝ → ℝ} {k : ℝ → ℝ → ℝ} (hw : Measurable w)
    (hk : Measurable fun z : ℝ × ℝ => k z.1 z.2) {op : ℝ → β → ℝ}
    (hK : ∀ᵐ θ ∂densLaw w, E.map (op θ) = densLaw (k θ))
    (hm : ∀ᵐ x, ∫⁻ θ, ENNReal.ofReal (w θ) * ENNReal.ofReal (k θ x) = ENNReal.ofReal (p x)) (A : Set ℝ)
    (hA : MeasurableSet A) : ∫⁻ θ, E.map (op θ) A ∂densLaw w = densLaw p A := by
  have e1 : ∫⁻ θ, E.map (op θ) A ∂densLaw w = ∫⁻ θ, densLaw (k θ) A ∂densLaw w :=
    lintegral_congr_ae (hK.mono fun θ hθ => by simp only [hθ])
  have hk' : Measurable fun z : ℝ × ℝ => ENNReal.ofReal (k z.1 z.2) := hk.ennreal_ofReal
  have e2 : ∀ θ, densLaw (k θ) A = ∫⁻ x in A, ENNReal.ofReal (k θ x) := fun θ => withDensity_apply _ hA
  have m2 : Measurable fun θ => densLaw (k θ) A := by
    simp only [e2]
    exact hk'.lintegral_prod_right'
  rw [e1, densLaw, lintegral_withDensity_eq_lintegral_mul _ hw.ennreal_ofReal m2]
  simp only [Pi.mul_apply, e2]
  have e3 : ∀ θ, ENNReal.ofReal (w θ) * ∫⁻ x in A, ENNReal.ofReal (k θ x) =
      ∫⁻ x in A, ENNReal.ofReal (w θ) * ENNReal.ofReal (k θ x) := fun θ =>
    (lintegral_const_mul _ (hk'.comp measurable_prodMk_left)).symm
  simp only [e3]
  rw [lintegral_lintegral_swap, densLaw, withDensity_apply _ hA]
  · exact setLIntegral_congr_fun_ae hA (hm.mono fun x hx _ => hx)
  · exact ((hw.ennreal_ofReal.comp measurable_fst).mul hk').aemeasurable

end continuous

section discrete
variable {S : Type*} [MeasurableSpace S] {P : Measure S} [IsProbabilityMeasure P]
  {g : S → Option (Fl × S)} {h : Fl → S → Option (Fl × S)} {ε : ℝ≥0∞}

/-- the integral of a function into `[0,1]` -/
theorem Near.lintegral_le {α : Type*} [MeasurableSpace α] {W' W : Measure α} [IsProbabilityMeasure W'] [IsProbabilityMeasure W]
    (hW : Within W' W ε) {f : α → ℝ≥0∞} (hf : Measurable f) (h1 : ∀ x, f x ≤ 1) :
    ∫⁻ x, f x ∂W' ≤ ∫⁻ x, f x ∂W + ε ∧ ∫⁻ x, f x ∂W ≤ ∫⁻ x, f x ∂W' + ε := by
  have hp : IsProbabilityMeasure (volume.restrict (Ioo (0 : ℝ) 1)) := ⟨by simp⟩
  have hw := hW.prod (Near.refl (volume.restrict (Ioo (0 : ℝ) 1))).within
  set A : Set (α × ℝ) := {z | ENNReal.ofReal z.2 < f z.1} with hA
  have mA : MeasurableSet A := measurableSet_lt (measurable_snd.ennreal_ofReal) (hf.comp measurable_fst)
  have val : ∀ V : Measure α, [IsProbabilityMeasure V] → (V.prod (volume.restrict (Ioo (0 : ℝ) 1))) A = ∫⁻ x, f x ∂V := by
    intro V _
    rw [Measure.prod_apply mA]
    refine lintegral_congr fun x => ?_
    have ht : f x ≠ ⊤ := ne_top_of_le_ne_top ENNReal.one_ne_top (h1 x)
    have hle : (f x).toReal ≤ 1 := ENNReal.toReal_le_of_le_ofReal one_pos.le (by simpa using h1 x)
    rw [Measure.restrict_apply (measurable_prodMk_left mA)]
    have : Prod.mk x ⁻¹' A ∩ Ioo (0 : ℝ) 1 = Ioo 0 (f x).toReal := by
      ext u
      simp only [hA, mem_inter_iff, mem_preimage, mem_setOf_eq, mem_Ioo]
      constructor
      · rintro ⟨a, b, c⟩
        exact ⟨b, (ENNReal.ofReal_lt_iff_lt_toReal b.le ht).1 a⟩
      · rintro ⟨a, b⟩
        exact ⟨(ENNReal.ofReal_lt_iff_lt_toReal a.le ht).2 b, a, b.trans_le hle⟩
    rw [this, Real.volume_Ioo, sub_zero, ENNReal.ofReal_toReal ht]
  have a := hw.le A mA
  have b := hw.ge A mA
  rw [val, val, add_zero] at a b
  exact ⟨a, b⟩

/-- A drawn integer selects the next draw. -/
theorem near_hier_int {W : Measure ℤ} [IsProbabilityMeasure W] {D : ℤ → Measure ℝ} (hD : ∀ k, IsProbabilityMeasure (D k))
    {F : Measure ℝ} {K : S → ℤ} {N : S → S} {X : ℤ → S → ℝ} {M : ℤ → S → S} {η : ℤ → ℝ≥0∞} (hg : NearDraw P K N W ε)
    (eg : ∀ᵐ s ∂P, g s = some (fin (K s), N s)) (hX : ∀ k, NearDraw P (X k) (M k) (D k) (η k))
    {T : Set ℤ} (hT : ∀ᵐ k ∂W, k ∈ T) (eh : ∀ k ∈ T, ∀ᵐ s ∂P, h (fin k) s = some (fin (X k s), M k s))
    (e : ∀ A, MeasurableSet A → ∫⁻ k, D k A ∂W = F A) :
    ∃ Y L, NearDraw P Y L F (ε + ∫⁻ k, η k ∂W) ∧ ∀ᵐ s ∂P, hier g h s = some (fin (Y s), L s) := by
  have eh' : ∀ᵐ s ∂P, ∀ k ∈ T, h (fin k) s = some (fin (X k s), M k s) := by
    rw [ae_all_iff]
    intro k
    by_cases hk : k ∈ T
    · exact (eh k hk).mono fun s hs _ => hs
    · exact .of_forall fun s hs => absurd hs hk
  have hT' := hg.ae_val hT
  have eN := hg.ae eh'
  obtain ⟨W', pW, hK, nW⟩ := hg
  choose D' pD hX' nD using hX
  have mD : Measurable D' := measurable_of_countable _
  have mX : Measurable fun z : ℤ × S => X z.1 z.2 := measurable_from_prod_countable_right fun k => (hX' k).mX
  have mM : Measurable fun z : ℤ × S => M z.1 z.2 := measurable_from_prod_countable_right fun k => (hX' k).mN
  have mY := mX.comp (hK.mX.prodMk hK.mN)
  have mL := mM.comp (hK.mX.prodMk hK.mN)
  have pB : IsProbabilityMeasure (W'.bind D') := ⟨by
    rw [Measure.bind_apply .univ mD.aemeasurable]; simp⟩
  refine ⟨fun s => X (K s) (N s), fun s => M (K s) (N s), ⟨W'.bind D', pB, ⟨mY, mL, ?_⟩, ?_⟩, ?_⟩
  · have : (fun s => (X (K s) (N s), M (K s) (N s))) = (fun z : ℤ × S => (X z.1 z.2, M z.1 z.2)) ∘ fun s => (K s, N s) := rfl
    rw [this, ← Measure.map_map (mX.prodMk mM) (hK.mX.prodMk hK.mN), hK.law]
    ext C hC
    rw [Measure.map_apply (mX.prodMk mM) hC, Measure.prod_apply ((mX.prodMk mM) hC), Measure.prod_apply hC,
      Measure.lintegral_bind mD.aemeasurable (measurable_measure_prodMk_left hC).aemeasurable]
    refine lintegral_congr fun k => ?_
    rw [← Measure.prod_apply hC, ← (hX' k).law, Measure.map_apply ((hX' k).mX.prodMk (hX' k).mN) hC]
    rfl
  · have one : ∀ A k, D k A ≤ 1 := fun A k => prob_le_one
    have one' : ∀ A k, D' k A ≤ 1 := fun A k => prob_le_one
    refine ⟨Measure.AbsolutelyContinuous.mk fun A hA h0 => ?_, fun A hA => ?_, fun A hA => ?_⟩
    · rw [← e A hA, lintegral_eq_zero_iff (measurable_of_countable _)] at h0
      rw [Measure.bind_apply hA mD.aemeasurable, lintegral_eq_zero_iff (measurable_of_countable _)]
      exact Filter.Eventually.mono (nW.ac.ae_le h0) fun k hk => (nD k).ac hk
    · rw [Measure.bind_apply hA mD.aemeasurable, ← e A hA]
      calc ∫⁻ k, D' k A ∂W' ≤ ∫⁻ k, D' k A ∂W + ε := (Near.lintegral_le nW.within (measurable_of_countable _) (one' A)).1
        _ ≤ ∫⁻ k, (D k A + η k) ∂W + ε := by gcongr with k; exact (nD k).le A hA
        _ = _ := by rw [lintegral_add_right _ (measurable_of_countable _)]; ring
    · rw [Measure.bind_apply hA mD.aemeasurable, ← e A hA]
      calc ∫⁻ k, D k A ∂W ≤ ∫⁻ k, (D' k A + η k) ∂W := by gcongr with k; exact (nD k).ge A hA
        _ = ∫⁻ k, D' k A ∂W + ∫⁻ k, η k ∂W := lintegral_add_right _ (measurable_of_countable _)
        _ ≤ (∫⁻ k, D' k A ∂W' + ε) + ∫⁻ k, η k ∂W := by
          gcongr; exact (Near.lintegral_le nW.within (measurable_of_countable _) (one' A)).2
        _ = _ := by rw [add_assoc]
  · filter_upwards [eg, eN, hT'] with s h1 h2 h3
    rw [hier, h1, Option.bind_some, h2 _ h3]

end discrete

end Stats

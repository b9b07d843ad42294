import Verif.Spec.Law
import Verif.Lemmas.RandIdeal
import Mathlib.MeasureTheory.Constructions.BorelSpace.Order
import Mathlib.MeasureTheory.Integral.Bochner.Set
import Mathlib.MeasureTheory.Integral.Bochner.Basic

/-! Calculus of laws: composition, images, inversion of distribution functions. -/

set_option linter.unusedSectionVars false
open MeasureTheory Set
open scoped ENNReal

namespace Stats
open Fl Spec

section rules
variable {S : Type*} [MeasurableSpace S] {P : Measure S}
variable {α β γ : Type*} [MeasurableSpace α] [MeasurableSpace β] [MeasurableSpace γ]

/-- `X` is drawn with law `D`, `N` is the state afterwards -/
structure Draw (P : Measure S) (X : S → α) (N : S → S) (D : Measure α) : Prop where
  mX : Measurable X
  mN : Measurable N
  law : P.map (fun s => (X s, N s)) = D.prod P

variable {X : S → α} {N : S → S} {D : Measure α} {Y : S → β} {M : S → S} {E : Measure β}

theorem Draw.next [IsProbabilityMeasure D] [SFinite P] (h : Draw P X N D) : P.map N = P := by
  have := congrArg (Measure.map Prod.snd) h.law
  rw [Measure.map_map measurable_snd (h.mX.prodMk h.mN)] at this
  rw [show N = Prod.snd ∘ (fun s => (X s, N s)) from rfl, this]
  rw [← Measure.snd, Measure.snd_prod]

theorem Draw.fst [IsProbabilityMeasure P] [SFinite D] (h : Draw P X N D) : P.map X = D := by
  have := congrArg (Measure.map Prod.fst) h.law
  rw [Measure.map_map measurable_fst (h.mX.prodMk h.mN)] at this
  rw [show X = Prod.fst ∘ (fun s => (X s, N s)) from rfl, this]
  rw [← Measure.fst, Measure.fst_prod]

theorem Draw.isProb [IsProbabilityMeasure P] [SFinite D] (h : Draw P X N D) : IsProbabilityMeasure D := by
  rw [← h.fst]
  exact Measure.isProbabilityMeasure_map h.mX.aemeasurable

theorem Draw.map [SFinite D] [SFinite P] (h : Draw P X N D) {f : α → γ} (hf : Measurable f) :
    Draw P (fun s => f (X s)) N (D.map f) := by
  refine ⟨hf.comp h.mX, h.mN, ?_⟩
  have := congrArg (Measure.map (Prod.map f id)) h.law
  rw [Measure.map_map (hf.prodMap measurable_id) (h.mX.prodMk h.mN), ← Measure.map_prod_map _ _ hf measurable_id,
    Measure.map_id] at this
  exact this

/-- two draws one after the other -/
theorem Draw.comp [SFinite D] [SFinite E] [SFinite P] (h : Draw P X N D) (h' : Draw P Y M E) :
    Draw P (fun s => (X s, Y (N s))) (fun s => M (N s)) (D.prod E) := by
  refine ⟨h.mX.prodMk (h'.mX.comp h.mN), h'.mN.comp h.mN, ?_⟩
  have hm : Measurable fun s => (Y s, M s) := h'.mX.prodMk h'.mN
  have e := congrArg (Measure.map (Prod.map id fun s => (Y s, M s))) h.law
  rw [Measure.map_map (measurable_id.prodMap hm) (h.mX.prodMk h.mN), ← Measure.map_prod_map _ _ measurable_id hm,
    Measure.map_id, h'.law] at e
  have e2 := congrArg (Measure.map MeasurableEquiv.prodAssoc.symm) e
  rw [Measure.map_map (MeasurableEquiv.measurable _) ((measurable_id.prodMap hm).comp (h.mX.prodMk h.mN))] at e2
  have e3 : Measure.map MeasurableEquiv.prodAssoc.symm (D.prod (E.prod P)) = (D.prod E).prod P :=
    ((measurePreserving_prodAssoc D E P).symm MeasurableEquiv.prodAssoc).map_eq
  rw [e3] at e2
  exact e2

/-- what holds for almost every state also holds for the state after a draw -/
theorem Draw.ae [IsProbabilityMeasure D] [SFinite P] (h : Draw P X N D) {p : S → Prop} (hp : ∀ᵐ s ∂P, p s) :
    ∀ᵐ s ∂P, p (N s) := by
  refine ae_of_ae_map h.mN.aemeasurable ?_
  rw [h.next]; exact hp

/-- what holds almost surely for the value -/
theorem Draw.ae_val [IsProbabilityMeasure P] [SFinite D] (h : Draw P X N D) {p : α → Prop} (hp : ∀ᵐ x ∂D, p x) :
    ∀ᵐ s ∂P, p (X s) := by
  refine ae_of_ae_map h.mX.aemeasurable ?_
  rw [h.fst]; exact hp

theorem hasLaw_iff {g : S → Option (Fl × S)} {D : Measure ℝ} :
    HasLaw P g D ↔ ∃ X N, Draw P X N D ∧ ∀ᵐ s ∂P, g s = some (fin (X s), N s) :=
  ⟨fun ⟨X, N, a, b, c, d⟩ => ⟨X, N, ⟨a, b, d⟩, c⟩, fun ⟨X, N, h, c⟩ => ⟨X, N, h.mX, h.mN, c, h.law⟩⟩

theorem HasLaw.congr {g g' : S → Option (Fl × S)} {D : Measure ℝ} (h : HasLaw P g D) (e : ∀ᵐ s ∂P, g s = g' s) :
    HasLaw P g' D := by
  obtain ⟨X, N, a, b, c, d⟩ := h
  exact ⟨X, N, a, b, by filter_upwards [c, e] with s h1 h2 using h2 ▸ h1, d⟩

theorem HasLaw.of_eq {g : S → Option (Fl × S)} {D D' : Measure ℝ} (h : HasLaw P g D) (e : D = D') : HasLaw P g D' :=
  e ▸ h

end rules

section dens
variable {F f : ℝ → ℝ}

theorem densLaw_congr {f g : ℝ → ℝ} (h : f =ᵐ[volume] g) : densLaw f = densLaw g :=
  withDensity_congr_ae (h.mono fun x hx => by simp only [hx])

theorem IsCdf.densLaw_Iic (h : IsCdf F f) (x : ℝ) : densLaw f (Iic x) = ENNReal.ofReal (F x) := by
  rw [densLaw, withDensity_apply _ measurableSet_Iic, ← h.running x,
    ofReal_integral_eq_lintegral_ofReal h.integrable.integrableOn (ae_restrict_of_ae h.nonneg)]

theorem IsCdf.isProb (h : IsCdf F f) : IsProbabilityMeasure (densLaw f) := by
  refine ⟨?_⟩
  rw [densLaw, withDensity_apply _ MeasurableSet.univ, setLIntegral_univ,
    ← ofReal_integral_eq_lintegral_ofReal h.integrable h.nonneg, h.total, ENNReal.ofReal_one]

instance (f : ℝ → ℝ) : SFinite (densLaw f) := by rw [densLaw]; infer_instance

/-- the law of the uniform variate -/
theorem densLaw_unif {a b : ℝ} (h : a < b) :
    densLaw (unifPdf a b) = ENNReal.ofReal (1 / (b - a)) • volume.restrict (Ioo a b) := by
  rw [densLaw]
  have : (fun x => ENNReal.ofReal (unifPdf a b x)) = (Icc a b).indicator fun _ => ENNReal.ofReal (1 / (b - a)) := by
    funext x
    rw [unifPdf, indicator]
    by_cases hx : a ≤ x ∧ x ≤ b
    · rw [if_pos hx, if_pos (by exact hx)]
    · rw [if_neg hx, if_neg (by exact hx), ENNReal.ofReal_zero]
  rw [this, withDensity_indicator measurableSet_Icc, withDensity_const, restrict_Ioo_eq_restrict_Icc]

theorem densLaw_unif01 : densLaw (unifPdf 0 1) = volume.restrict (Ioo 0 1) := by
  rw [densLaw_unif one_pos]; simp

/-- Inversion: a function that inverts `F` turns a uniform variate into one with the law of `F`. -/
theorem inversion (h : IsCdf F f) {X : ℝ → ℝ} (h1 : ∀ u, 0 < u → u < 1 → F (X u) = u)
    (h2 : ∀ x, 0 < F x → F x < 1 → X (F x) = x) (hm : Measurable X) :
    (volume.restrict (Ioo (0 : ℝ) 1)).map X = densLaw f := by
  have key : ∀ u, 0 < u → u < 1 → ∀ x, X u ≤ x ↔ u ≤ F x := by
    intro u h0 hu x
    constructor
    · intro hx
      rw [← h1 u h0 hu]; exact h.mono hx
    · intro hx
      by_contra hc
      have e : F x = u := le_antisymm (by rw [← h1 u h0 hu]; exact h.mono (not_le.1 hc).le) hx
      apply hc
      rw [← e, h2 x (e ▸ h0) (e ▸ hu)]
  have := h.isProb
  have hfin : IsFiniteMeasure ((volume.restrict (Ioo (0 : ℝ) 1)).map X) := inferInstance
  refine Measure.ext_of_Iic _ _ fun x => ?_
  rw [h.densLaw_Iic, Measure.map_apply hm measurableSet_Iic, Measure.restrict_apply (hm measurableSet_Iic)]
  have e : X ⁻¹' Iic x ∩ Ioo 0 1 = Ioo 0 1 ∩ Iic (F x) := by
    ext u
    simp only [mem_inter_iff, mem_preimage, mem_Iic, mem_Ioo]
    constructor
    · rintro ⟨a, b, c⟩; exact ⟨⟨b, c⟩, (key u b c x).1 a⟩
    · rintro ⟨⟨b, c⟩, a⟩; exact ⟨(key u b c x).2 a, b, c⟩
  rw [e]
  rcases (h.le_one x).lt_or_eq with hx | hx
  · have : Ioo (0 : ℝ) 1 ∩ Iic (F x) = Ioc 0 (F x) := by
      ext u; simp only [mem_inter_iff, mem_Ioo, mem_Iic, mem_Ioc]
      constructor
      · rintro ⟨⟨a, b⟩, c⟩; exact ⟨a, c⟩
      · rintro ⟨a, c⟩; exact ⟨⟨a, c.trans_lt hx⟩, c⟩
    rw [this, Real.volume_Ioc, sub_zero]
  · have : Ioo (0 : ℝ) 1 ∩ Iic (F x) = Ioo 0 1 := by
      rw [hx]; exact inter_eq_left.2 fun u hu => hu.2.le
    rw [this, Real.volume_Ioo, hx, sub_zero]

/-- a measurable real function behind a quantile function that inverts `F` -/
theorem IsInv.measurable (hF : IsCdf F f) {q : Fl → Fl} (hq : IsInv q F) :
    ∃ X : ℝ → ℝ, Measurable X ∧ (∀ u, 0 < u → u < 1 → q (fin u) = fin (X u)) ∧
      (volume.restrict (Ioo (0 : ℝ) 1)).map X = densLaw f := by
  classical
  have hex : ∀ u : ℝ, ∃ x : ℝ, 0 < u → u < 1 → F x = u ∧ q (fin u) = fin x := by
    intro u
    by_cases hu : 0 < u ∧ u < 1
    · obtain ⟨x, rfl⟩ := hF.exists_eq hu.1 hu.2
      have h1 : F x = F x := rfl
      have h2 := hq x hu.1 hu.2
      exact ⟨x, fun _ _ => ⟨h1, h2⟩⟩
    · exact ⟨0, fun a b => absurd ⟨a, b⟩ hu⟩
  choose Y hY using hex
  have hX2 : ∀ x, 0 < F x → F x < 1 → Y (F x) = x := by
    intro x h0 h1
    have := (hY (F x) h0 h1).2
    rw [hq x h0 h1] at this
    exact (Fl.fin.inj this).symm
  set X : ℝ → ℝ := fun u => if u ∈ Ioo (0 : ℝ) 1 then Y u else 0 with hX
  have e : ∀ u, 0 < u → u < 1 → X u = Y u := fun u a b => if_pos ⟨a, b⟩
  have hm : Measurable X := by
    refine measurable_of_Iic fun x => ?_
    have hs : X ⁻¹' Iic x = (Ioo 0 1 ∩ {u | u ≤ F x}) ∪ ((Ioo 0 1)ᶜ ∩ {_u | (0 : ℝ) ≤ x}) := by
      ext u
      simp only [mem_preimage, mem_Iic, mem_union, mem_inter_iff, mem_compl_iff, mem_ofPred_eq]
      by_cases hu : u ∈ Ioo (0 : ℝ) 1
      · have : X u = Y u := if_pos hu
        simp only [hu, true_and, not_true_eq_false, false_and, or_false, this]
        constructor
        · intro hx
          rw [← (hY u hu.1 hu.2).1]; exact hF.mono hx
        · intro hx
          by_contra hc
          have e : F x = u := le_antisymm (by
            rw [← (hY u hu.1 hu.2).1]; exact hF.mono (not_le.1 hc).le) hx
          apply hc
          rw [← e, hX2 x (e ▸ hu.1) (e ▸ hu.2)]
      · have : X u = 0 := if_neg hu
        simp only [hu, false_and, not_false_eq_true, true_and, false_or, this]
    rw [hs]
    exact (measurableSet_Ioo.inter measurableSet_Iic).union
      (measurableSet_Ioo.compl.inter (MeasurableSet.const _))
  refine ⟨X, hm, fun u a b => by rw [e u a b]; exact (hY u a b).2, ?_⟩
  refine inversion hF (fun u a b => by rw [e u a b]; exact (hY u a b).1) (fun x a b => by rw [e _ a b, hX2 x a b]) hm

end dens

section engine
variable [Lib] {S : Type*} [MeasurableSpace S] [Engine S] {P : Measure S}

/-- `runif(0,1)` if `nextafter(0,1)` is idealised to 0 -/
theorem fair_runif (hP : FairEngine P) (hn : Lib.next 0 1 = 0) :
    ∃ U N, Draw P U N (volume.restrict (Ioo (0 : ℝ) 1)) ∧
      ∀ᵐ s ∂P, runif (fin 0) (fin 1) s = (fin (U s), N s) ∧ 0 < U s ∧ U s < 1 := by
  have := hP.prob
  have h := hP.unif 0 1 one_pos
  rw [densLaw_unif01, hasLaw_iff] at h
  obtain ⟨U, N, hd, h⟩ := h
  refine ⟨U, N, hd, ?_⟩
  have h2 := hd.ae_val (ae_restrict_mem measurableSet_Ioo)
  filter_upwards [h, h2] with s hs hu
  refine ⟨?_, hu.1, hu.2⟩
  rw [runif, if_neg (by simp [unif_ok]), nextafter, hn]
  exact Option.some.inj hs

/-- inverse-transform generators -/
theorem inversion_law (hP : FairEngine P) (hn : Lib.next 0 1 = 0) {F f : ℝ → ℝ} (hF : IsCdf F f) {q : Fl → Fl}
    (hq : IsInv q F) {g : S → Fl × S}
    (hg : ∀ s, g s = (q (runif (fin 0) (fin 1) s).1, (runif (fin 0) (fin 1) s).2)) :
    HasLaw P (fun s => some (g s)) (densLaw f) := by
  have := hP.prob
  obtain ⟨U, N, hd, h⟩ := fair_runif hP hn
  obtain ⟨X, hm, hX, hl⟩ := IsInv.measurable hF hq
  rw [hasLaw_iff]
  refine ⟨_, N, hl ▸ hd.map hm, ?_⟩
  filter_upwards [h] with s hs
  rw [hg, hs.1, hX _ hs.2.1 hs.2.2]

end engine
end Stats

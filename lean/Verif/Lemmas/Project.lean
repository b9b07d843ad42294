import Verif.Spec.Project
import Verif.Lemmas.Combine
import Verif.Props.C47

/-! Rules for the laws of numbers, vectors and matrices calculated from draws. -/

open MeasureTheory Set
open scoped ENNReal

namespace Stats
open Fl Spec

section rules
variable {S : Type*} [MeasurableSpace S] {P : Measure S} [IsProbabilityMeasure P]
  {R R' R'' F F' F'' : Type*} [Shape R F] [Shape R' F'] [Shape R'' F'']
  [MeasurableSpace R] [MeasurableSpace R'] [MeasurableSpace R'']

omit [MeasurableSpace R] in
theorem entries_emb (x : R) : entries (Shape.emb x : F) = some x := by
  have h : ∃ y : R, Shape.emb y = (Shape.emb x : F) := ⟨x, rfl⟩
  rw [entries, dif_pos h]
  exact congrArg some (Shape.inj h.choose_spec)

/-- The generator returns an array of a law within `ε` of `D` with probability one. -/
def NearGen (P : Measure S) (g : S → Option (F × S)) (D : Measure R) (ε : ℝ) : Prop :=
  ∃ D' : Measure R, IsProbabilityMeasure D' ∧ (∃ (X : S → R) (N : S → S), Measurable X ∧ Measurable N ∧
    (∀ᵐ s ∂P, g s = some (Shape.emb (X s), N s)) ∧ P.map (fun s => (X s, N s)) = D'.prod P) ∧
    ∀ A, MeasurableSet A → |D'.real A - D.real A| ≤ ε

variable {g : S → Option (F × S)} {h : S → Option (F' × S)} {D : Measure R} {E : Measure R'} {L : Measure R''} {ε η : ℝ}

theorem nearGen_via (hg : NearGen P g D ε) {f : R → R'} (hf : Measurable f) (e : D.map f = E) :
    NearGen P (via f g) E ε := by
  obtain ⟨D', _, ⟨X, N, mX, mN, eX, hX⟩, hD⟩ := hg
  have hX : Draw P X N D' := ⟨mX, mN, hX⟩
  have := hX.map hf
  refine ⟨D'.map f, Measure.isProbabilityMeasure_map hf.aemeasurable, ⟨_, _, this.mX, this.mN, eX.mono fun s hs => ?_, this.law⟩,
    fun A hA => ?_⟩
  · simp only [via, hs, Option.bind_some, entries_emb, Option.map_some]
  · rw [← e, map_measureReal_apply hf hA, map_measureReal_apply hf hA]
    exact hD _ (hf hA)

theorem nearGen_via₂ [IsProbabilityMeasure D] [IsProbabilityMeasure E] (hg : NearGen P g D ε) (hh : NearGen P h E η)
    {op : R → R' → R''} (ho : Measurable fun p : R × R' => op p.1 p.2) (e : (D.prod E).map (fun p => op p.1 p.2) = L) :
    NearGen P (via₂ op g h) L (ε + η) := by
  obtain ⟨D', _, ⟨X, N, mX, mN, eX, hX⟩, hD⟩ := hg
  obtain ⟨E', _, ⟨Y, M, mY, mM, eY, hY⟩, hE⟩ := hh
  have ε0 : 0 ≤ ε := (abs_nonneg _).trans (hD ∅ .empty)
  have η0 : 0 ≤ η := (abs_nonneg _).trans (hE ∅ .empty)
  have hX : Draw P X N D' := ⟨mX, mN, hX⟩
  have hY : Draw P Y M E' := ⟨mY, mM, hY⟩
  have hXY := (hX.comp hY).map ho
  refine ⟨(D'.prod E').map fun p => op p.1 p.2, Measure.isProbabilityMeasure_map ho.aemeasurable,
    ⟨_, _, hXY.mX, hXY.mN, ?_, hXY.law⟩, fun A hA => ?_⟩
  · filter_upwards [eX, hX.ae eY] with s h1 h2
    simp only [via₂, via, h1, h2, Option.bind_some, entries_emb, Option.map_some]
  · have w := (within_of_real hD).prod (within_of_real hE)
    rw [← ENNReal.ofReal_add ε0 η0] at w
    have := Measure.isProbabilityMeasure_map (μ := D'.prod E') ho.aemeasurable
    rw [← e]
    exact (w.map ho).real (by linarith) hA

omit [IsProbabilityMeasure P] in
theorem NearGen.exact [IsProbabilityMeasure D] (hg : NearGen P g D 0) : ∃ (X : S → R) (N : S → S), Measurable X ∧ Measurable N ∧
    (∀ᵐ s ∂P, g s = some (Shape.emb (X s), N s)) ∧ P.map (fun s => (X s, N s)) = D.prod P := by
  obtain ⟨D', _, h, e⟩ := hg
  have : D' = D := Measure.ext fun A hA => by
    have := e A hA
    rw [abs_nonpos_iff, sub_eq_zero] at this
    exact (ENNReal.toReal_eq_toReal_iff' (by finiteness) (by finiteness)).1 this
  exact this ▸ h

omit [IsProbabilityMeasure P] in
theorem Spec.HasLawV.near {ι : Type*} {g : S → Option ((ι → Fl) × S)} {D : Measure (ι → ℝ)} [IsProbabilityMeasure D]
    (hg : HasLawV P g D) : NearGen P g D 0 := ⟨D, inferInstance, hg, fun A _ => by simp⟩

omit [IsProbabilityMeasure P] in
theorem Spec.HasLawM.near {ι κ : Type*} {g : S → Option ((ι → κ → Fl) × S)} {D : Measure (ι → κ → ℝ)} [IsProbabilityMeasure D]
    (hg : HasLawM P g D) : NearGen P g D 0 := ⟨D, inferInstance, hg, fun A _ => by simp⟩

omit [IsProbabilityMeasure P] in
theorem Spec.NearLawM.gen {ι κ : Type*} {g : S → Option ((ι → κ → Fl) × S)} {D : Measure (ι → κ → ℝ)}
    (hg : NearLawM P g D ε) : NearGen P g D ε := hg

omit [IsProbabilityMeasure P] in
theorem NearGen.law {g : S → Option (Fl × S)} {D : Measure ℝ} (hg : NearGen P g D ε) : NearLaw P g D ε := hg

end rules
end Stats

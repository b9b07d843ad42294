import Verif.Lemmas.GammaLaw
import Mathlib.MeasureTheory.Measure.Real
import Mathlib.Analysis.Real.Pi.Bounds
import Mathlib.MeasureTheory.Constructions.Pi

/-! Laws that differ by at most `ε` on every event: images, products, rejection. -/

set_option linter.unusedSectionVars false
open MeasureTheory Set
open scoped ENNReal

namespace Stats
open Fl Spec

section rules
variable {S : Type*} [MeasurableSpace S] {P : Measure S}
variable {α β γ : Type*} [MeasurableSpace α] [MeasurableSpace β] [MeasurableSpace γ]

/-- `D'` is within `ε` of `D` on every event, and every null event of `D` is one of `D'`. -/
structure Near (D' D : Measure α) (ε : ℝ≥0∞) : Prop where
  ac : D' ≪ D
  le : ∀ A, MeasurableSet A → D' A ≤ D A + ε
  ge : ∀ A, MeasurableSet A → D A ≤ D' A + ε

/-- the part about events -/
structure Within (D' D : Measure α) (ε : ℝ≥0∞) : Prop where
  le : ∀ A, MeasurableSet A → D' A ≤ D A + ε
  ge : ∀ A, MeasurableSet A → D A ≤ D' A + ε

theorem Near.within {D' D : Measure α} {ε : ℝ≥0∞} (h : Near D' D ε) : Within D' D ε := ⟨h.le, h.ge⟩

theorem Near.refl (D : Measure α) : Near D D 0 :=
  ⟨Measure.AbsolutelyContinuous.rfl, fun _ _ => le_self_add, fun _ _ => le_self_add⟩

theorem Near.mono {D' D : Measure α} {ε η : ℝ≥0∞} (h : Near D' D ε) (hη : ε ≤ η) : Near D' D η :=
  ⟨h.ac, fun A hA => (h.le A hA).trans (by gcongr), fun A hA => (h.ge A hA).trans (by gcongr)⟩

theorem Near.map {D' D : Measure α} {ε : ℝ≥0∞} (h : Near D' D ε) {f : α → γ} (hf : Measurable f) :
    Near (D'.map f) (D.map f) ε := by
  refine ⟨h.ac.map hf, fun A hA => ?_, fun A hA => ?_⟩ <;> rw [Measure.map_apply hf hA, Measure.map_apply hf hA]
  · exact h.le _ (hf hA)
  · exact h.ge _ (hf hA)

theorem Within.prod {D' D : Measure α} {E' E : Measure β} [IsProbabilityMeasure D'] [IsProbabilityMeasure D]
    [IsProbabilityMeasure E'] [IsProbabilityMeasure E] {ε η : ℝ≥0∞} (h : Within D' D ε) (h' : Within E' E η) :
    Within (D'.prod E') (D.prod E) (ε + η) := by
  have k1 : ∀ {F' F : Measure β} [IsProbabilityMeasure F'] [IsProbabilityMeasure F],
      (∀ A, MeasurableSet A → F' A ≤ F A + η) → ∀ A : Set (α × β), MeasurableSet A →
      (D'.prod F') A ≤ (D'.prod F) A + η := by
    intro F' F _ _ hF A hA
    rw [Measure.prod_apply hA, Measure.prod_apply hA]
    calc ∫⁻ x, F' (Prod.mk x ⁻¹' A) ∂D' ≤ ∫⁻ x, (F (Prod.mk x ⁻¹' A) + η) ∂D' :=
          lintegral_mono fun x => hF _ (measurable_prodMk_left hA)
      _ = _ := by rw [lintegral_add_right _ measurable_const, lintegral_const, measure_univ, mul_one]
  have k2 : ∀ {F' F : Measure α} [IsProbabilityMeasure F'] [IsProbabilityMeasure F],
      (∀ A, MeasurableSet A → F' A ≤ F A + ε) → ∀ A : Set (α × β), MeasurableSet A →
      (F'.prod E) A ≤ (F.prod E) A + ε := by
    intro F' F _ _ hF A hA
    rw [Measure.prod_apply_symm hA, Measure.prod_apply_symm hA]
    calc ∫⁻ y, F' ((fun x => (x, y)) ⁻¹' A) ∂E ≤ ∫⁻ y, (F ((fun x => (x, y)) ⁻¹' A) + ε) ∂E :=
          lintegral_mono fun y => hF _ (measurable_prodMk_right hA)
      _ = _ := by rw [lintegral_add_right _ measurable_const, lintegral_const, measure_univ, mul_one]
  refine ⟨fun A hA => ?_, fun A hA => ?_⟩
  · calc (D'.prod E') A ≤ (D'.prod E) A + η := k1 h'.le A hA
      _ ≤ (D.prod E) A + ε + η := by gcongr; exact k2 h.le A hA
      _ = _ := by rw [add_assoc]
  · calc (D.prod E) A ≤ (D'.prod E) A + ε := k2 h.ge A hA
      _ ≤ (D'.prod E') A + η + ε := by gcongr; exact k1 h'.ge A hA
      _ = _ := by rw [add_assoc, add_comm η]

theorem Near.prod {D' D : Measure α} {E' E : Measure β} [IsProbabilityMeasure D'] [IsProbabilityMeasure D]
    [IsProbabilityMeasure E'] [IsProbabilityMeasure E] {ε η : ℝ≥0∞} (h : Near D' D ε) (h' : Near E' E η) :
    Near (D'.prod E') (D.prod E) (ε + η) :=
  let w := h.within.prod h'.within
  ⟨h.ac.prod h'.ac, w.le, w.ge⟩

theorem Within.map {D' D : Measure α} {ε : ℝ≥0∞} (h : Within D' D ε) {f : α → γ} (hf : Measurable f) :
    Within (D'.map f) (D.map f) ε := by
  refine ⟨fun A hA => ?_, fun A hA => ?_⟩ <;> rw [Measure.map_apply hf hA, Measure.map_apply hf hA]
  · exact h.le _ (hf hA)
  · exact h.ge _ (hf hA)

/-- independent copies -/
theorem Within.pi {D' D : Measure ℝ} [IsProbabilityMeasure D'] [IsProbabilityMeasure D] {ε : ℝ≥0∞} (h : Within D' D ε) :
    ∀ n : ℕ, Within (Measure.pi fun _ : Fin n => D') (Measure.pi fun _ : Fin n => D) (n * ε)
  | 0 => by
    have e : (Measure.pi fun _ : Fin 0 => D') = Measure.pi fun _ : Fin 0 => D := by
      rw [Measure.pi_of_empty _ Fin.elim0, Measure.pi_of_empty _ Fin.elim0]
    rw [e]
    exact ⟨fun _ _ => le_self_add, fun _ _ => le_self_add⟩
  | n + 1 => by
    have h1 := (measurePreserving_piFinSuccAbove (fun _ : Fin (n + 1) => D') 0).symm
      (MeasurableEquiv.piFinSuccAbove (fun _ => ℝ) 0)
    have h2 := (measurePreserving_piFinSuccAbove (fun _ : Fin (n + 1) => D) 0).symm
      (MeasurableEquiv.piFinSuccAbove (fun _ => ℝ) 0)
    have := (h.prod (Within.pi h n)).map (MeasurableEquiv.piFinSuccAbove (fun _ : Fin (n + 1) => ℝ) 0).symm.measurable
    rw [h1.map_eq, h2.map_eq] at this
    convert this using 1
    push_cast; ring

/-- Rejection: conditioning two close laws on an event. -/
theorem Near.cond {J' J : Measure α} [IsProbabilityMeasure J'] [IsProbabilityMeasure J] {ε : ℝ} (h0 : 0 ≤ ε)
    (h : Near J' J (ENNReal.ofReal ε)) {E : Set α} (hE : MeasurableSet E) {q : ℝ} (hq : 0 < q) (hq' : q ≤ J'.real E)
    (hE0 : J E ≠ 0) :
    Near ((J' E)⁻¹ • J'.restrict E) ((J E)⁻¹ • J.restrict E) (ENNReal.ofReal (ε / q)) := by
  have p' : 0 < J'.real E := hq.trans_le hq'
  have p : 0 < J.real E := by
    rw [measureReal_def]; exact ENNReal.toReal_pos hE0 (measure_ne_top _ _)
  have hE0' : J' E ≠ 0 := fun hc => by rw [measureReal_def, hc] at p'; simp at p'
  -- events inside `E`, in real numbers
  have hle : ∀ A, MeasurableSet A → J'.real A ≤ J.real A + ε := by
    intro A hA
    have := ENNReal.toReal_mono (by finiteness) (h.le A hA)
    rwa [ENNReal.toReal_add (by finiteness) (by finiteness), ENNReal.toReal_ofReal h0] at this
  have hge : ∀ A, MeasurableSet A → J.real A ≤ J'.real A + ε := by
    intro A hA
    have := ENNReal.toReal_mono (by finiteness) (h.ge A hA)
    rwa [ENNReal.toReal_add (by finiteness) (by finiteness), ENNReal.toReal_ofReal h0] at this
  have key : ∀ A, MeasurableSet A → |J'.real (A ∩ E) / J'.real E - J.real (A ∩ E) / J.real E| ≤ ε / q := by
    intro A hA
    have s : ∀ F : Measure α, [IsProbabilityMeasure F] → F.real E = F.real (A ∩ E) + F.real (E \ A) := by
      intro F _
      rw [inter_comm, measureReal_inter_add_sdiff hA]
    have x1 := hle _ (hA.inter hE); have x2 := hge _ (hA.inter hE)
    have y1 := hle _ (hE.diff hA); have y2 := hge _ (hE.diff hA)
    have px : 0 ≤ J.real (A ∩ E) := measureReal_nonneg
    have py : 0 ≤ J.real (E \ A) := measureReal_nonneg
    have p1 := p'; have p2 := p; have q1 := hq'
    rw [s J'] at p1 q1 ⊢
    rw [s J] at p2 ⊢
    clear s hle hge
    generalize J'.real (A ∩ E) = x' at *
    generalize J.real (A ∩ E) = x at *
    generalize J'.real (E \ A) = y' at *
    generalize J.real (E \ A) = y at *
    have e : x' / (x' + y') - x / (x + y) = ((x' - x) * y - (y' - y) * x) / ((x + y) * (x' + y')) := by
      rw [div_sub_div _ _ p1.ne' p2.ne', mul_comm (x + y)]
      congr 1
      ring
    rw [e, abs_div, abs_of_pos (mul_pos p2 p1), div_le_div_iff₀ (mul_pos p2 p1) hq]
    have n : |(x' - x) * y - (y' - y) * x| ≤ ε * (x + y) := by
      have a1 : |x' - x| ≤ ε := abs_le.2 ⟨by linarith, by linarith⟩
      have a2 : |y' - y| ≤ ε := abs_le.2 ⟨by linarith, by linarith⟩
      calc _ ≤ |(x' - x) * y| + |(y' - y) * x| := abs_sub _ _
        _ = |x' - x| * y + |y' - y| * x := by rw [abs_mul, abs_mul, abs_of_nonneg px, abs_of_nonneg py]
        _ ≤ ε * y + ε * x := by gcongr
        _ = _ := by ring
    calc _ ≤ ε * (x + y) * (x' + y') := by gcongr
      _ = _ := by ring
  have val : ∀ F : Measure α, [IsProbabilityMeasure F] → F E ≠ 0 → ∀ A, MeasurableSet A →
      ((F E)⁻¹ • F.restrict E) A = ENNReal.ofReal (F.real (A ∩ E) / F.real E) := by
    intro F _ hF A hA
    have pF : 0 < F.real E := by rw [measureReal_def]; exact ENNReal.toReal_pos hF (measure_ne_top _ _)
    rw [Measure.smul_apply, Measure.restrict_apply hA, smul_eq_mul, ENNReal.ofReal_div_of_pos pF,
      ofReal_measureReal, ofReal_measureReal, ENNReal.div_eq_inv_mul]
  refine ⟨?_, fun A hA => ?_, fun A hA => ?_⟩
  · refine Measure.AbsolutelyContinuous.trans (Measure.smul_absolutelyContinuous) ?_
    refine (h.ac.restrict E).trans ?_
    exact Measure.absolutelyContinuous_smul (by simp)
  · rw [val J' hE0' A hA, val J hE0 A hA, ← ENNReal.ofReal_add (by positivity) (by positivity)]
    refine ENNReal.ofReal_le_ofReal ?_
    have := (abs_le.1 (key A hA)).2
    linarith
  · rw [val J' hE0' A hA, val J hE0 A hA, ← ENNReal.ofReal_add (by positivity) (by positivity)]
    refine ENNReal.ofReal_le_ofReal ?_
    have := (abs_le.1 (key A hA)).1
    linarith

/-- `X` is drawn with a law within `ε` of `D`, `N` is the state afterwards -/
def NearDraw (P : Measure S) (X : S → α) (N : S → S) (D : Measure α) (ε : ℝ≥0∞) : Prop :=
  ∃ D', IsProbabilityMeasure D' ∧ Draw P X N D' ∧ Near D' D ε

variable {X : S → α} {N : S → S} {D : Measure α} {Y : S → β} {M : S → S} {E : Measure β} {ε η : ℝ≥0∞}

theorem Draw.near [IsProbabilityMeasure D] (h : Draw P X N D) : NearDraw P X N D 0 := ⟨D, inferInstance, h, .refl D⟩

theorem NearDraw.mono (h : NearDraw P X N D ε) (hη : ε ≤ η) : NearDraw P X N D η := by
  obtain ⟨D', a, b, c⟩ := h
  exact ⟨D', a, b, c.mono hη⟩

theorem NearDraw.map [SFinite P] (h : NearDraw P X N D ε) {f : α → γ} (hf : Measurable f) :
    NearDraw P (fun s => f (X s)) N (D.map f) ε := by
  obtain ⟨D', a, b, c⟩ := h
  exact ⟨_, Measure.isProbabilityMeasure_map hf.aemeasurable, b.map hf, c.map hf⟩

theorem NearDraw.comp [SFinite P] [IsProbabilityMeasure D] [IsProbabilityMeasure E] (h : NearDraw P X N D ε)
    (h' : NearDraw P Y M E η) : NearDraw P (fun s => (X s, Y (N s))) (fun s => M (N s)) (D.prod E) (ε + η) := by
  obtain ⟨D', a, b, c⟩ := h
  obtain ⟨E', a', b', c'⟩ := h'
  exact ⟨_, inferInstance, b.comp b', c.prod c'⟩

theorem NearDraw.ae [SFinite P] (h : NearDraw P X N D ε) {p : S → Prop} (hp : ∀ᵐ s ∂P, p s) : ∀ᵐ s ∂P, p (N s) := by
  obtain ⟨D', a, b, c⟩ := h
  exact b.ae hp

theorem NearDraw.ae_val [IsProbabilityMeasure P] (h : NearDraw P X N D ε) {p : α → Prop} (hp : ∀ᵐ x ∂D, p x) :
    ∀ᵐ s ∂P, p (X s) := by
  obtain ⟨D', a, b, c⟩ := h
  exact b.ae_val (c.ac.ae_le hp)

theorem Within.real {D' D : Measure α} [IsProbabilityMeasure D'] {ε : ℝ} (h0 : 0 ≤ ε) (c : Within D' D (ENNReal.ofReal ε))
    {A : Set α} (hA : MeasurableSet A) : |D'.real A - D.real A| ≤ ε := by
  have hD : D A ≠ ⊤ := ne_top_of_le_ne_top (by finiteness) (c.ge A hA)
  have h1 := ENNReal.toReal_mono (by finiteness) (c.le A hA)
  have h2 := ENNReal.toReal_mono (by finiteness) (c.ge A hA)
  rw [ENNReal.toReal_add (by finiteness) (by finiteness), ENNReal.toReal_ofReal h0] at h1 h2
  simp only [measureReal_def]
  exact abs_le.2 ⟨by linarith, by linarith⟩

theorem within_of_real {D' D : Measure α} [IsProbabilityMeasure D'] [IsProbabilityMeasure D] {ε : ℝ}
    (h : ∀ A, MeasurableSet A → |D'.real A - D.real A| ≤ ε) : Within D' D (ENNReal.ofReal ε) := by
  have h0 : 0 ≤ ε := (abs_nonneg _).trans (h ∅ MeasurableSet.empty)
  refine ⟨fun A hA => ?_, fun A hA => ?_⟩
  · rw [← ofReal_measureReal (μ := D') (s := A), ← ofReal_measureReal (μ := D) (s := A),
      ← ENNReal.ofReal_add measureReal_nonneg h0]
    exact ENNReal.ofReal_le_ofReal (by linarith [(abs_le.1 (h A hA)).2])
  · rw [← ofReal_measureReal (μ := D') (s := A), ← ofReal_measureReal (μ := D) (s := A),
      ← ENNReal.ofReal_add measureReal_nonneg h0]
    exact ENNReal.ofReal_le_ofReal (by linarith [(abs_le.1 (h A hA)).1])

theorem NearDraw.exact (h : NearDraw P X N D 0) : Draw P X N D := by
  obtain ⟨D', a, b, c⟩ := h
  have : D' = D := Measure.ext fun A hA => le_antisymm (by simpa using c.le A hA) (by simpa using c.ge A hA)
  exact this ▸ b

theorem NearDraw.nearLaw {D : Measure ℝ} {X : S → ℝ} {ε : ℝ} (h0 : 0 ≤ ε)
    (h : NearDraw P X N D (ENNReal.ofReal ε)) {g : S → Option (Fl × S)} (hg : ∀ᵐ s ∂P, g s = some (fin (X s), N s)) :
    NearLaw P g D ε := by
  obtain ⟨D', a, b, c⟩ := h
  exact ⟨D', a, hasLaw_iff.2 ⟨X, N, b, hg⟩, fun A hA => c.within.real h0 hA⟩

end rules

section counts

/-- the excess of `a` over `b` -/
theorem mul_tsub_le (a b c d : ℝ≥0∞) : a * c - b * d ≤ (a - b) * c + b * (c - d) := by
  rw [tsub_le_iff_right]
  calc a * c ≤ ((a - b) + b) * c := by gcongr; exact le_tsub_add
    _ ≤ (a - b) * c + b * ((c - d) + d) := by rw [add_mul]; gcongr; exact le_tsub_add
    _ = _ := by rw [mul_add, add_assoc]

/-- the excess of one product law over another -/
theorem tsum_mul_tsub_le {α β : Type*} {a b : α → ℝ≥0∞} {c d : α → β → ℝ≥0∞} {ε η : ℝ≥0∞} (h : ∑' x, (a x - b x) ≤ ε)
    (hb : ∑' x, b x ≤ 1) (hc : ∀ x, a x ≠ 0 → ∑' y, c x y ≤ 1) (hcd : ∀ x, b x ≠ 0 → ∑' y, (c x y - d x y) ≤ η) :
    ∑' x, ∑' y, (a x * c x y - b x * d x y) ≤ ε + η := by
  calc ∑' x, ∑' y, (a x * c x y - b x * d x y) ≤ ∑' x, ∑' y, ((a x - b x) * c x y + b x * (c x y - d x y)) := by
        gcongr with x y; exact mul_tsub_le _ _ _ _
    _ = ∑' x, ((a x - b x) * ∑' y, c x y + b x * ∑' y, (c x y - d x y)) := by
        congr 1; funext x
        rw [ENNReal.tsum_add, ENNReal.tsum_mul_left, ENNReal.tsum_mul_left]
    _ ≤ ∑' x, ((a x - b x) + b x * η) := by
        refine ENNReal.tsum_le_tsum fun x => ?_
        refine add_le_add ?_ ?_
        · by_cases ha : a x = 0
          · simp [ha]
          · exact mul_le_of_le_one_right' (hc x ha)
        · by_cases hb : b x = 0
          · simp [hb]
          · gcongr; exact hcd x hb
    _ = ∑' x, (a x - b x) + (∑' x, b x) * η := by rw [ENNReal.tsum_add, ENNReal.tsum_mul_right]
    _ ≤ ε + η := by
        gcongr
        exact mul_le_of_le_one_left' hb

/-- the total excess on single counts -/
theorem tsum_sub_le {D' D : Measure ℤ} [IsProbabilityMeasure D'] [IsProbabilityMeasure D] {ε : ℝ≥0∞}
    (h : ∀ A, MeasurableSet A → D' A ≤ D A + ε) : ∑' c : ℕ, (D' {(c : ℤ)} - D {(c : ℤ)}) ≤ ε := by
  classical
  set T : Set ℕ := {c | D {(c : ℤ)} ≤ D' {(c : ℤ)}} with hT
  have val : ∀ F : Measure ℤ, F ((fun c : ℕ => (c : ℤ)) '' T) = ∑' c : ℕ, T.indicator (fun c => F {(c : ℤ)}) c := by
    intro F
    have e : (fun c : ℕ => (c : ℤ)) '' T = ⋃ c : ℕ, (if c ∈ T then {(c : ℤ)} else ∅) := by
      ext z
      simp only [mem_image, mem_iUnion]
      constructor
      · rintro ⟨c, hc, rfl⟩; exact ⟨c, by simp [hc]⟩
      · rintro ⟨c, hc⟩
        split_ifs at hc with h
        · exact ⟨c, h, hc.symm⟩
        · exact hc.elim
    rw [e, measure_iUnion]
    · congr 1; funext c
      rw [indicator_apply]
      split_ifs <;> simp
    · intro a b hab
      simp only [Function.onFun]
      split_ifs
      · simpa using fun hc => hab (by exact_mod_cast hc)
      all_goals simp
    · intro c; exact (Set.to_countable _).measurableSet
  have h1 := h ((fun c : ℕ => (c : ℤ)) '' T) (Set.to_countable _).measurableSet
  have e : ∀ c : ℕ, D' {(c : ℤ)} - D {(c : ℤ)} + T.indicator (fun c => D {(c : ℤ)}) c = T.indicator (fun c => D' {(c : ℤ)}) c := by
    intro c
    rw [indicator_apply, indicator_apply]
    split_ifs with hc
    · exact tsub_add_cancel_of_le hc
    · rw [add_zero]; exact tsub_eq_zero_of_le (not_le.1 hc).le
  have e2 : ∑' c : ℕ, (D' {(c : ℤ)} - D {(c : ℤ)}) + D ((fun c : ℕ => (c : ℤ)) '' T) = D' ((fun c : ℕ => (c : ℤ)) '' T) := by
    rw [val, val, ← ENNReal.tsum_add]; exact tsum_congr e
  rw [← e2, add_comm] at h1
  exact (ENNReal.add_le_add_iff_left (measure_ne_top _ _)).1 h1

theorem tsum_singleton_le (D : Measure ℤ) [IsProbabilityMeasure D] : ∑' c : ℕ, D {(c : ℤ)} ≤ 1 := by
  rw [← measure_univ (μ := D), ← measure_iUnion]
  · exact measure_mono (subset_univ _)
  · intro a b hab
    simpa [Function.onFun] using fun hc => hab (by exact_mod_cast hc)
  · intro c; exact measurableSet_singleton _

end counts

section unif

/-- the uniform law on `(δ, 1)` -/
theorem near_unif {δ : ℝ} (h0 : 0 ≤ δ) (h1 : δ < 1) :
    Near (densLaw (unifPdf δ 1)) (volume.restrict (Ioo (0 : ℝ) 1)) (ENNReal.ofReal δ) := by
  have hsub : Ioo δ 1 ⊆ Ioo (0 : ℝ) 1 := Ioo_subset_Ioo_left h0
  have hfin : ∀ A : Set ℝ, volume (A ∩ Ioo δ 1) ≠ ⊤ := fun A =>
    ne_top_of_le_ne_top (by rw [Real.volume_Ioo]; finiteness) (measure_mono (inter_subset_right (s := A) (t := Ioo δ 1)))
  have hm1 : ∀ A : Set ℝ, volume (A ∩ Ioo δ 1) ≤ ENNReal.ofReal (1 - δ) := fun A => by
    rw [← Real.volume_Ioo]; exact measure_mono inter_subset_right
  rw [densLaw_unif h1]
  refine ⟨?_, fun A hA => ?_, fun A hA => ?_⟩
  · refine Measure.AbsolutelyContinuous.trans (Measure.smul_absolutelyContinuous) ?_
    exact (Measure.restrict_mono hsub le_rfl).absolutelyContinuous
  · rw [Measure.smul_apply, Measure.restrict_apply hA, Measure.restrict_apply hA, smul_eq_mul]
    have e1 := ENNReal.ofReal_toReal (hfin A)
    have e2 : (volume (A ∩ Ioo δ 1)).toReal ≤ 1 - δ := by
      have := ENNReal.toReal_mono ENNReal.ofReal_ne_top (hm1 A)
      rwa [ENNReal.toReal_ofReal (by linarith)] at this
    have e3 : 0 ≤ (volume (A ∩ Ioo δ 1)).toReal := ENNReal.toReal_nonneg
    calc _ ≤ volume (A ∩ Ioo δ 1) + ENNReal.ofReal δ := by
          rw [← e1, ← ENNReal.ofReal_mul (by have : 0 < 1 - δ := by linarith
                                             positivity), ← ENNReal.ofReal_add e3 h0]
          refine ENNReal.ofReal_le_ofReal ?_
          generalize (volume (A ∩ Ioo δ 1)).toReal = m at e2 e3
          have hd : 0 < 1 - δ := by linarith
          rw [div_mul_eq_mul_div, div_le_iff₀ hd]
          nlinarith
      _ ≤ _ := by gcongr
  · rw [Measure.smul_apply, Measure.restrict_apply hA, Measure.restrict_apply hA, smul_eq_mul]
    have e1 : (1 : ℝ≥0∞) ≤ ENNReal.ofReal (1 / (1 - δ)) := by
      rw [← ENNReal.ofReal_one]
      refine ENNReal.ofReal_le_ofReal ?_
      rw [le_div_iff₀ (by linarith)]; linarith
    calc volume (A ∩ Ioo 0 1) ≤ volume (A ∩ Ioo δ 1 ∪ Ioc 0 δ) := by
          refine measure_mono fun u hu => ?_
          by_cases h : u ≤ δ
          · exact Or.inr ⟨hu.2.1, h⟩
          · exact Or.inl ⟨hu.1, not_le.1 h, hu.2.2⟩
      _ ≤ volume (A ∩ Ioo δ 1) + ENNReal.ofReal δ := by
          refine (measure_union_le _ _).trans ?_
          rw [Real.volume_Ioc, sub_zero]
      _ ≤ _ := by gcongr; exact le_mul_of_one_le_left' e1

end unif

section gamma

/-- at least one round in five is accepted -/
theorem gammaSub_univ_ge {a c : ℝ} (ha : 1 < a) (hc : 0 < c) (h : (a - 1 / 3) * (9 * c ^ 2) = 1) :
    ENNReal.ofReal (1 / 5) ≤ gammaSub (a - 1 / 3) c univ := by
  have hd : 2 / 3 < a - 1 / 3 := by linarith
  rw [gammaSub_apply (by linarith) hc h MeasurableSet.univ, preimage_univ]
  simp only [indicator_univ]
  set d := a - 1 / 3 with hdd
  have hc1 : c ≤ 0.41 := by
    by_contra hcc
    push Not at hcc
    have : (0.41 : ℝ) ^ 2 < c ^ 2 := by gcongr
    nlinarith
  have hlow : ∀ z ∈ Ioo (0 : ℝ) 1, 1 / 5 ≤ normPdf 0 1 z * Real.exp (gammaCheck d c z) := by
    intro z hz
    have hw : 0 ≤ c * z := mul_nonneg hc.le hz.1.le
    have hlog : c * z - (c * z) ^ 2 / 2 ≤ Real.log (1 + c * z) := by
      refine le_trans ?_ (Real.le_log_one_add_of_nonneg hw)
      rw [le_div_iff₀ (by linarith)]
      nlinarith [mul_nonneg hw (mul_nonneg hw hw)]
    have hg : -z ^ 2 / 2 + gammaCheck d c z ≥ -0.546 := by
      rw [gammaCheck, Real.log_pow]
      push_cast
      have k1 : d * (1 - (1 + c * z) ^ 3 + 3 * Real.log (1 + c * z)) ≥
          d * (1 - (1 + c * z) ^ 3 + 3 * (c * z - (c * z) ^ 2 / 2)) := by
        have : 0 ≤ d := by linarith
        gcongr
      have k2 : d * (1 - (1 + c * z) ^ 3 + 3 * (c * z - (c * z) ^ 2 / 2)) = -(z ^ 2) / 2 - c * z ^ 3 / 9 := by
        linear_combination (-(z ^ 2) / 2 - c * z ^ 3 / 9) * h
      have k3 : c * z ^ 3 ≤ 0.41 * 1 := by
        have : z ^ 3 ≤ 1 := pow_le_one₀ hz.1.le hz.2.le
        have : 0 ≤ z ^ 3 := pow_nonneg hz.1.le 3
        gcongr
      have k4 : z ^ 2 ≤ 1 := pow_le_one₀ hz.1.le hz.2.le
      nlinarith
    have e : normPdf 0 1 z * Real.exp (gammaCheck d c z) =
        1 / √(2 * Real.pi) * Real.exp (-z ^ 2 / 2 + gammaCheck d c z) := by
      rw [normPdf, Real.exp_add]
      simp only [sub_zero, one_pow, mul_one]
      ring
    have hs : √(2 * Real.pi) ≤ 2.51 := by
      rw [Real.sqrt_le_left (by norm_num)]
      have := Real.pi_lt_d2
      nlinarith
    have hs0 : 0 < √(2 * Real.pi) := Real.sqrt_pos.2 (by positivity)
    have hexp : (0.52 : ℝ) ≤ Real.exp (-0.546) := by
      have h1 : (1 : ℝ) + (-0.273) ≤ Real.exp (-0.273) := by
        have := Real.add_one_le_exp (-0.273 : ℝ); linarith
      have h2 : Real.exp (-0.546) = Real.exp (-0.273) ^ 2 := by
        rw [← Real.exp_nat_mul]; norm_num
      rw [h2]
      nlinarith
    rw [e, div_mul_eq_mul_div, one_mul, le_div_iff₀ hs0]
    calc 1 / 5 * √(2 * Real.pi) ≤ 0.52 := by nlinarith
      _ ≤ Real.exp (-0.546) := hexp
      _ ≤ _ := Real.exp_le_exp.2 hg
  calc ENNReal.ofReal (1 / 5) = ∫⁻ _z in Ioo (0 : ℝ) 1, ENNReal.ofReal (1 / 5) := by simp
    _ ≤ ∫⁻ z in Ioo (0 : ℝ) 1, ENNReal.ofReal (normPdf 0 1 z * Real.exp (gammaCheck d c z)) :=
        setLIntegral_mono' measurableSet_Ioo fun z hz => ENNReal.ofReal_le_ofReal (hlow z hz)
    _ ≤ _ := by
        refine lintegral_mono_set fun z hz => ?_
        have : -1 / c < 0 := by rw [neg_div]; simpa using hc
        exact this.trans hz.1

end gamma
end Stats

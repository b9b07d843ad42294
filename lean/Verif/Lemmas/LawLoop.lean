import Verif.Lemmas.Law
import Mathlib.MeasureTheory.MeasurableSpace.Constructions
import Mathlib.Topology.Algebra.InfiniteSum.ENNReal
import Mathlib.Analysis.SpecificLimits.Basic

/-! The law of the result of a rejection loop. -/

open MeasureTheory Set
open scoped ENNReal

namespace Stats

variable {S : Type*} [MeasurableSpace S] {P : Measure S} {α : Type*} [MeasurableSpace α]

/-- A loop that, in state `s`, stops with value `V s` and state `M s` if `s ∈ acc`, and otherwise goes on in state
`R s`. If a round is accepted with (sub-)law `A` and, when rejected, leaves a state distributed like `P`, the loop
stops almost surely and the law of the value is `A`, normalised. -/
theorem draw_loop [IsProbabilityMeasure P] {acc : Set S} (hacc : MeasurableSet acc) {V : S → α} {M R : S → S}
    (hV : Measurable V) (hM : Measurable M) (hR : Measurable R) {A : Measure α} [IsFiniteMeasure A]
    (hA0 : A univ ≠ 0) (hA1 : A univ ≤ 1)
    (hA : ∀ B : Set (α × S), MeasurableSet B → P {s | s ∈ acc ∧ (V s, M s) ∈ B} = (A.prod P) B)
    (hr : ∀ C : Set S, MeasurableSet C → P {s | s ∉ acc ∧ R s ∈ C} = (1 - A univ) * P C) :
    ∃ X N, Draw P X N ((A univ)⁻¹ • A) ∧
      ∀ᵐ s ∂P, ∃ k, (∀ j < k, R^[j] s ∉ acc) ∧ R^[k] s ∈ acc ∧ X s = V (R^[k] s) ∧ N s = M (R^[k] s) := by
  classical
  have hRk : ∀ k, Measurable R^[k] := fun k => hR.iterate k
  -- stopped after `k` rejections, with the result in `B`
  let T : ℕ → Set (α × S) → Set S := fun k B =>
    {s | (∀ j < k, R^[j] s ∉ acc) ∧ R^[k] s ∈ acc ∧ (V (R^[k] s), M (R^[k] s)) ∈ B}
  have hTm : ∀ k B, MeasurableSet B → MeasurableSet (T k B) := by
    intro k B hB
    have h1 : MeasurableSet {s | ∀ j < k, R^[j] s ∉ acc} := by
      have : {s | ∀ j < k, R^[j] s ∉ acc} = ⋂ j, ⋂ (_ : j < k), (R^[j] ⁻¹' acc)ᶜ := by ext s; simp
      rw [this]
      exact MeasurableSet.iInter fun j => MeasurableSet.iInter fun _ => ((hRk j) hacc).compl
    exact h1.inter (((hRk k) hacc).inter (((hV.comp (hRk k)).prodMk (hM.comp (hRk k))) hB))
  have hT : ∀ k B, MeasurableSet B → P (T k B) = (1 - A univ) ^ k * (A.prod P) B := by
    intro k
    induction k with
    | zero => intro B hB; rw [pow_zero, one_mul, ← hA B hB]; simp [T]
    | succ k ih =>
      intro B hB
      have : T (k + 1) B = {s | s ∉ acc ∧ R s ∈ T k B} := by
        ext s
        simp only [T, mem_ofPred_eq, Function.iterate_succ, Function.comp]
        constructor
        · rintro ⟨h1, h2, h3⟩
          exact ⟨h1 0 (by omega), fun j hj => by simpa using h1 (j + 1) (by omega), h2, h3⟩
        · rintro ⟨h0, h1, h2, h3⟩
          refine ⟨fun j hj => ?_, h2, h3⟩
          cases j with
          | zero => exact h0
          | succ j => simpa using h1 j (by omega)
      rw [this, hr _ (hTm k B hB), ih B hB, pow_succ, ← mul_assoc, mul_comm (1 - A univ)]
  have hgeo : ∑' k : ℕ, (1 - A univ) ^ k = (A univ)⁻¹ := by
    rw [ENNReal.tsum_geometric, ENNReal.sub_sub_cancel ENNReal.one_ne_top hA1]
  have hdisj : ∀ B, Pairwise (Function.onFun Disjoint fun k => T k B) := by
    intro B i j hij
    refine Set.disjoint_left.2 fun s hi hj => ?_
    rcases lt_or_gt_of_ne hij with h | h
    · exact hj.1 i h hi.2.1
    · exact hi.1 j h hj.2.1
  have hU : ∀ B, MeasurableSet B → P (⋃ k, T k B) = ((A univ)⁻¹ • A).prod P B := by
    intro B hB
    rw [measure_iUnion (hdisj B) fun k => hTm k B hB]
    simp_rw [hT _ B hB]
    rw [ENNReal.tsum_mul_right, hgeo, Measure.prod_smul_left]
    rfl
  have hstop : ∀ᵐ s ∂P, s ∈ ⋃ k, T k univ := by
    have h1 : P (⋃ k, T k univ) = 1 := by
      rw [hU univ MeasurableSet.univ, Measure.prod_apply MeasurableSet.univ]
      simp [ENNReal.inv_mul_cancel hA0 (measure_ne_top A univ)]
    rw [ae_iff]
    exact (prob_compl_eq_zero_iff (MeasurableSet.iUnion fun k => hTm k univ MeasurableSet.univ)).2 h1
  have hp : ∀ s, ∃ k, R^[k] s ∈ acc ∨ ∀ j, R^[j] s ∉ acc := by
    intro s
    by_cases h : ∃ k, R^[k] s ∈ acc
    · exact ⟨h.choose, Or.inl h.choose_spec⟩
    · exact ⟨0, Or.inr (not_exists.1 h)⟩
  have hKm : Measurable fun s => Nat.find (hp s) := by
    refine measurable_find hp fun k => ?_
    have : {s | ∀ j, R^[j] s ∉ acc} = ⋂ j, (R^[j] ⁻¹' acc)ᶜ := by ext s; simp
    have h2 : MeasurableSet {s | ∀ j, R^[j] s ∉ acc} := by
      rw [this]; exact MeasurableSet.iInter fun j => ((hRk j) hacc).compl
    exact ((hRk k) hacc).union h2
  have hit : Measurable fun s => R^[Nat.find (hp s)] s := by
    have : Measurable fun x : ℕ × S => R^[x.1] x.2 := measurable_from_prod_countable_right fun k => hRk k
    exact this.comp (hKm.prodMk measurable_id)
  have hfind : ∀ {s k}, (∀ j < k, R^[j] s ∉ acc) → R^[k] s ∈ acc → Nat.find (hp s) = k := by
    intro s k h1 h2
    rw [Nat.find_eq_iff]
    exact ⟨Or.inl h2, fun j hj hc => hc.elim (h1 j hj) fun h => h k h2⟩
  have hsp : ∀ᵐ s ∂P, ∃ k, (∀ j < k, R^[j] s ∉ acc) ∧ R^[k] s ∈ acc ∧ Nat.find (hp s) = k := by
    filter_upwards [hstop] with s hs
    obtain ⟨k, h1, h2, -⟩ := mem_iUnion.1 hs
    exact ⟨k, h1, h2, hfind h1 h2⟩
  refine ⟨fun s => V (R^[Nat.find (hp s)] s), fun s => M (R^[Nat.find (hp s)] s),
    ⟨hV.comp hit, hM.comp hit, ?_⟩, ?_⟩
  · refine Measure.ext fun B hB => ?_
    have hmm : Measurable fun s => (V (R^[Nat.find (hp s)] s), M (R^[Nat.find (hp s)] s)) :=
      (hV.comp hit).prodMk (hM.comp hit)
    rw [Measure.map_apply hmm hB, ← hU B hB]
    refine measure_congr ?_
    filter_upwards [hsp] with s hs
    obtain ⟨k, h1, h2, h3⟩ := hs
    refine propext ⟨fun h => ?_, fun h => ?_⟩
    · refine mem_iUnion.2 ⟨k, h1, h2, ?_⟩
      have h : (V (R^[Nat.find (hp s)] s), M (R^[Nat.find (hp s)] s)) ∈ B := h
      rwa [h3] at h
    · obtain ⟨k', g1, g2, g3⟩ := mem_iUnion.1 h
      show (V (R^[Nat.find (hp s)] s), M (R^[Nat.find (hp s)] s)) ∈ B
      rw [hfind g1 g2]; exact g3
  · filter_upwards [hsp] with s hs
    obtain ⟨k, h1, h2, h3⟩ := hs
    exact ⟨k, h1, h2, by rw [h3], by rw [h3]⟩

end Stats

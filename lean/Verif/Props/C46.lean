import Verif.Props.C26
import Verif.Props.C29
import Verif.Props.C31
import Verif.Props.C32
import Verif.Lemmas.MultiLaw
import Mathlib.MeasureTheory.Measure.Typeclasses.NullSingletonClass

/-!
# C46: the entries of a generated vector are independent and have the named law
-/

set_option linter.unusedSectionVars false
open MeasureTheory Classical

namespace Stats.Spec
open Fl

/-- `call s s' o`: the vector call can turn the engine `s` into `s'` and the buffer `out` into `o`. For almost every
engine the call ends in exactly one way; the first `num` elements are then independent numbers with the law `D`, the
other elements are unchanged, and the engine left behind is distributed like the engine before and independent of the
numbers. -/
def IidFill {S : Type*} [MeasurableSpace S] (P : Measure S) (call : S → S → (ℕ → Option Fl) → Prop) (num : ℕ)
    (out : ℕ → Option Fl) (D : Measure ℝ) : Prop :=
  ∃ (X : S → Fin num → ℝ) (N : S → S), Measurable X ∧ Measurable N ∧
    (∀ᵐ s ∂P, ∀ s' o, call s s' o ↔
      s' = N s ∧ ∀ i, o i = if h : i < num then some (fin (X s ⟨i, h⟩)) else out i) ∧
    P.map (fun s => (X s, N s)) = (Measure.pi fun _ : Fin num => D).prod P

end Stats.Spec

namespace Stats.Vec
open Fl Spec

section
variable {S : Type*}

theorem ofFun_runs {r : S → Option (Fl × S)} {s : S} {x : Fl × S} (h : r s = some x) {v : Fl} {e : S} :
    (Gen.ofFun r).Runs (Gen.ofFun r).init s v e ↔ v = x.1 ∧ e = x.2 := by
  have hs : (Gen.ofFun r).step (Gen.ofFun r).init s = (.inl x.1, x.2) := by simp [Gen.ofFun, h]
  constructor
  · intro hr
    exact hr.unique (.ret hs)
  · rintro ⟨rfl, rfl⟩
    exact .ret hs

theorem randLoop_iff_of_lt {g : Gen Fl S} {num i : ℕ} (h : i < num) {s s' : S} {out o : ℕ → Option Fl} :
    RandLoop g num i s out s' o ↔
      ∃ v e, g.Runs g.init s v e ∧ RandLoop g num (i + 1) e (Function.update out i (some v)) s' o := by
  constructor
  · intro hl
    cases hl with
    | stop h' => exact absurd h h'
    | go _ hv t => exact ⟨_, _, hv, t⟩
  · rintro ⟨v, e, hv, t⟩
    exact .go h hv t

theorem randLoop_iff_of_ge {g : Gen Fl S} {num i : ℕ} (h : ¬ i < num) {s s' : S} {out o : ℕ → Option Fl} :
    RandLoop g num i s out s' o ↔ s' = s ∧ o = out := by
  constructor
  · intro hl
    cases hl with
    | stop _ => exact ⟨rfl, rfl⟩
    | go h' _ _ => exact absurd h' h
  · rintro ⟨rfl, rfl⟩
    exact .stop h

theorem randLoop_law [MeasurableSpace S] {P : Measure S} [IsProbabilityMeasure P] {r : S → Option (Fl × S)}
    {D : Measure ℝ} [SFinite D] (hr : HasLaw P r D) (num k : ℕ) : ∀ i, i + k = num →
    ∃ (X : S → Fin k → ℝ) (N : S → S), Draw P X N (Measure.pi fun _ => D) ∧
      ∀ᵐ s ∂P, ∀ out s' o, RandLoop (Gen.ofFun r) num i s out s' o ↔
        s' = N s ∧ ∀ m, o m = if h : i ≤ m ∧ m < i + k then some (fin (X s ⟨m - i, by omega⟩)) else out m := by
  obtain ⟨X0, N0, d0, h0⟩ := hasLaw_iff.1 hr
  have := d0.isProb
  induction k with
  | zero =>
    intro i hi
    refine ⟨_, _, Draw.nil _, .of_forall fun s out s' o => ?_⟩
    rw [randLoop_iff_of_ge (by omega)]
    refine and_congr_right fun _ => ?_
    rw [funext_iff]
    refine forall_congr' fun m => ?_
    rw [dif_neg (by omega)]
  | succ k ih =>
    intro i hi
    obtain ⟨X, N, d, h⟩ := ih (i + 1) (by omega)
    refine ⟨_, _, Draw.cons (D := fun _ => D) d0 d, ?_⟩
    filter_upwards [h0, d0.ae h] with s e1 e2 out s' o
    rw [randLoop_iff_of_lt (by omega)]
    simp only [ofFun_runs e1]
    constructor
    · rintro ⟨v, e, ⟨rfl, rfl⟩, t⟩
      obtain ⟨a, b⟩ := (e2 _ _ _).1 t
      refine ⟨a, fun m => ?_⟩
      rw [b m]
      by_cases hm : i = m
      · subst hm
        rw [dif_neg (by omega), dif_pos (by omega)]
        simp only [Function.update_self, Nat.sub_self]
        rfl
      · by_cases hm2 : i + 1 ≤ m ∧ m < i + 1 + k
        · rw [dif_pos hm2, dif_pos (by omega)]
          have : (⟨m - i, by omega⟩ : Fin (k + 1)) = Fin.succ ⟨m - (i + 1), by omega⟩ := by
            ext; simp; omega
          rw [this, Fin.cons_succ]
        · rw [dif_neg hm2, dif_neg (by omega), Function.update_of_ne (by omega)]
    · rintro ⟨a, b⟩
      refine ⟨_, _, ⟨rfl, rfl⟩, (e2 _ _ _).2 ⟨a, fun m => ?_⟩⟩
      rw [b m]
      by_cases hm : i = m
      · subst hm
        rw [dif_neg (show ¬ (i + 1 ≤ i ∧ i < i + 1 + k) by omega), dif_pos (show i ≤ i ∧ i < i + (k + 1) by omega)]
        simp only [Function.update_self, Nat.sub_self]
        rfl
      · by_cases hm2 : i + 1 ≤ m ∧ m < i + 1 + k
        · rw [dif_pos hm2, dif_pos (show i ≤ m ∧ m < i + (k + 1) by omega)]
          have : (⟨m - i, by omega⟩ : Fin (k + 1)) = Fin.succ ⟨m - (i + 1), by omega⟩ := by
            ext; simp; omega
          rw [this, Fin.cons_succ]
        · rw [dif_neg hm2, dif_neg (show ¬ (i ≤ m ∧ m < i + (k + 1)) by omega), Function.update_of_ne (by omega)]

end

section
variable [Lib] {S : Type*} [Engine S] [MeasurableSpace S] {P : Measure S} [IsProbabilityMeasure P]
variable {r : S → Option (Fl × S)} {D : Measure ℝ} [SFinite D]

/-- Without OpenMP a vector of any length holds independent numbers with the law of the scalar generator. -/
theorem C46_noomp (hr : HasLaw P r D) (num : ℕ) (out : ℕ → Option Fl) :
    IidFill P (fun s s' o => RandVecSerial (Gen.ofFun r) num s out s' o) num out D := by
  obtain ⟨X, N, d, h⟩ := randLoop_law hr num num 0 (Nat.zero_add _)
  refine ⟨X, N, d.mX, d.mN, ?_, d.law⟩
  filter_upwards [h] with s hs s' o
  rw [RandVecSerial, hs out s' o]
  refine and_congr_right fun _ => forall_congr' fun m => ?_
  by_cases hm : m < num
  · rw [dif_pos hm, dif_pos (by omega)]; rfl
  · rw [dif_neg hm, dif_neg (by omega)]

/-- With OpenMP the same holds for the vectors that are too short for a parallel region. What is missing: longer
vectors, see `C46_parallel_violated`. -/
theorem C46_openmp_partial (hr : HasLaw P r D) {num T : ℕ} (hb : ¬ minPerBlock < perBlock num T)
    (out : ℕ → Option Fl) :
    IidFill P (fun s s' o => ∃ tr, RandVec (Gen.ofFun r) num T s out tr s' o) num out D := by
  obtain ⟨X, N, mX, mN, h, l⟩ := C46_noomp hr num out
  refine ⟨X, N, mX, mN, ?_, l⟩
  filter_upwards [h] with s hs s' o
  rw [← hs s' o]
  constructor
  · rintro ⟨tr, hv⟩
    cases hv with
    | parallel h => exact absurd h hb
    | serial _ hl => exact hl
  · intro hl
    exact ⟨[], .serial hb hl⟩

end

/-! ## The parallel region -/

section
variable [Lib] [NextLib] {S : Type*} [Engine S] {V : Type*} {g : Gen V S} {num T : ℕ}

/-- Whatever the state of the engine and whatever the schedule, the first element of a vector filled by the parallel
region is one of 1001 values, fixed by the generator and the number of threads. -/
theorem C46_first_values (hn : num < 2 ^ 64) (hT : 0 < T) (hb : minPerBlock < perBlock num T) :
    ∃ F : Set V, F.encard ≤ 1001 ∧ ∀ (s s' : S) (out o : ℕ → Option V) (tr : List (ℕ × List Access)),
      RandVec g num T s out tr s' o → ∃ v ∈ F, o 0 = some v := by
  set I := Finset.Icc (1000 * nThreads T) (1000 * (nThreads T + 1)) with hI
  have hcard : I.card = 1001 := by rw [hI, Nat.card_Icc]; omega
  refine ⟨{v | ∃ k ∈ I, ∃ e, g.Runs g.init (Engine.seed k : S) v e}, ?_, fun s s' out o tr h => ?_⟩
  · set f : V → Option ℕ := fun v =>
      if h : ∃ k ∈ I, ∃ e, g.Runs g.init (Engine.seed k : S) v e then some h.choose else none with hf
    have hinj : Set.InjOn f {v | ∃ k ∈ I, ∃ e, g.Runs g.init (Engine.seed k : S) v e} := by
      intro v hv w hw hvw
      simp only [Set.mem_ofPred_eq] at hv hw
      simp only [hf, dif_pos hv, dif_pos hw, Option.some.injEq] at hvw
      obtain ⟨-, e, h1⟩ := hv.choose_spec
      obtain ⟨-, e', h2⟩ := hw.choose_spec
      rw [hvw] at h1
      exact (h1.unique h2).1
    rw [← hinj.encard_image]
    refine (Set.encard_le_encard (t := (I.image some : Finset (Option ℕ))) ?_).trans ?_
    · rintro _ ⟨v, hv, rfl⟩
      simp only [Set.mem_ofPred_eq] at hv
      simp only [hf, dif_pos hv, Finset.coe_image, Set.mem_image, Finset.mem_coe, Option.some.injEq, exists_eq_right]
      exact hv.choose_spec.1
    · rw [Set.encard_coe_eq_coe_finsetCard]
      have := Finset.card_image_le (s := I) (f := (some : ℕ → Option ℕ))
      rw [hcard] at this
      exact_mod_cast this
  · obtain ⟨sd, v, e, h1, h2, h3, h4⟩ := first_element hn hT hb h
    exact ⟨v, ⟨sd, Finset.mem_Icc.2 ⟨h1, h2⟩, e, h3⟩, h4⟩

/-- Whatever the state of the engine and whatever the schedule, the whole vector is one of `1001 ^ n` vectors, where `n`
is the number of threads, at most 4. -/
theorem C46_vector_values (hn : num < 2 ^ 64) (hT : 0 < T) (hb : minPerBlock < perBlock num T) (out : ℕ → Option V) :
    ∃ F : Set (ℕ → Option V), F.encard ≤ 1001 ^ nThreads T ∧ ∀ (s s' : S) (o : ℕ → Option V)
      (tr : List (ℕ × List Access)), RandVec g num T s out tr s' o → o ∈ F := by
  have hT4 : nThreads T ≤ 4 := min_le_right _ _
  set I : Fin (nThreads T) → Finset ℕ := fun j =>
    Finset.Icc (1000 * (j + nThreads T)) (1000 * (j + nThreads T + 1)) with hI
  set L : Finset (List ℕ) := (Fintype.piFinset I).image List.ofFn with hL
  have hcard : L.card ≤ 1001 ^ nThreads T := by
    refine Finset.card_image_le.trans ?_
    rw [Fintype.card_piFinset]
    have : ∀ j, (I j).card = 1001 := fun j => by simp only [hI, Nat.card_Icc]; omega
    simp [this]
  refine ⟨{o | ∃ sd ∈ L, Filled g num T sd out o}, ?_, fun s s' o tr h => ?_⟩
  · set f : (ℕ → Option V) → Option (List ℕ) := fun o =>
      if h : ∃ sd ∈ L, Filled g num T sd out o then some h.choose else none with hf
    have hinj : Set.InjOn f {o | ∃ sd ∈ L, Filled g num T sd out o} := by
      intro v hv w hw hvw
      simp only [Set.mem_ofPred_eq] at hv hw
      simp only [hf, dif_pos hv, dif_pos hw, Option.some.injEq] at hvw
      have h1 := hv.choose_spec.2
      have h2 := hw.choose_spec.2
      rw [hvw] at h1
      exact h1.unique hT h2
    rw [← hinj.encard_image]
    refine (Set.encard_le_encard (t := (L.image some : Finset (Option (List ℕ)))) ?_).trans ?_
    · rintro _ ⟨v, hv, rfl⟩
      simp only [Set.mem_ofPred_eq] at hv
      simp only [hf, dif_pos hv, Finset.coe_image, Set.mem_image, Finset.mem_coe, Option.some.injEq, exists_eq_right]
      exact hv.choose_spec.1
    · rw [Set.encard_coe_eq_coe_finsetCard]
      have := (Finset.card_image_le (s := L) (f := (some : List ℕ → Option (List ℕ)))).trans hcard
      exact_mod_cast this
  · obtain ⟨sd, hsd, hF⟩ := C24_parallel hn hT hb h
    refine ⟨sd, ?_, hF⟩
    obtain ⟨hl, hs⟩ := seedLoop_spec
      (P := fun k v => 1000 * (k + nThreads T) ≤ v ∧ v ≤ 1000 * (k + nThreads T + 1))
      (n := nThreads T) (fun k hk s v s' hv => by
        obtain ⟨w, t, hw, h1, h2⟩ := seed_value_bounds (k := k) (n := nThreads T) (by omega) s
        rw [hv] at hw
        simp only [Option.some.injEq, Prod.mk.injEq] at hw
        obtain ⟨rfl, rfl⟩ := hw
        exact ⟨h1, h2⟩) _ _ _ _ _ (by omega) hsd
    rw [hL, Finset.mem_image]
    refine ⟨fun j => sd[j.1]'(by rw [hl]; exact j.2), Fintype.mem_piFinset.2 fun j => ?_, ?_⟩
    · have := hs j.1 (by rw [hl]; exact j.2)
      rw [Nat.zero_add] at this
      exact Finset.mem_Icc.2 this
    · refine List.ext_getElem (by simp [hl]) fun i h1 h2 => by simp

end

section
variable [Lib] [NextLib] {S : Type*} [Engine S] [MeasurableSpace S] {P : Measure S} [IsProbabilityMeasure P]

/-- So with OpenMP no vector of at least five elements per thread holds numbers with a law that has no atoms (normal,
uniform, gamma, ...), however good the engine: the C46 claim fails for every such law, engine and generator. -/
theorem C46_parallel_violated {r : S → Option (Fl × S)} {D : Measure ℝ} [IsProbabilityMeasure D] [NullSingletonClass D]
    {num T : ℕ} (hn : num < 2 ^ 64) (hT : 0 < T) (hb : minPerBlock < perBlock num T) (out : ℕ → Option Fl) :
    ¬ IidFill P (fun s s' o => ∃ tr, RandVec (Gen.ofFun r) num T s out tr s' o) num out D := by
  rintro ⟨X, N, mX, mN, h, l⟩
  obtain ⟨F, hF, hv⟩ := C46_first_values (S := S) (g := Gen.ofFun r) hn hT hb
  have hpos : 0 < num := by
    rcases Nat.eq_zero_or_pos num with rfl | h0
    · simp [perBlock, minPerBlock] at hb
    · exact h0
  have hfin : F.Finite := Set.finite_of_encard_le_coe hF
  have hG : (fin ⁻¹' F : Set ℝ).Finite := hfin.preimage (fun a _ b _ e => by simpa using e)
  have d : Draw P X N (Measure.pi fun _ : Fin num => D) := ⟨mX, mN, l⟩
  have h2 : P.map (fun s => X s ⟨0, hpos⟩) = D := by
    have := d.fst
    have e := (measurePreserving_eval (fun _ : Fin num => D) ⟨0, hpos⟩).map_eq
    rw [← this, Measure.map_map (measurable_pi_apply _) mX] at e
    exact e
  have m0 : Measurable fun s => X s ⟨0, hpos⟩ := (measurable_pi_apply _).comp mX
  have h3 : ∀ᵐ s ∂P, X s ⟨0, hpos⟩ ∈ (fin ⁻¹' F : Set ℝ) := by
    filter_upwards [h] with s hs
    obtain ⟨tr, ht⟩ := (hs (N s) _).2 ⟨rfl, fun i => rfl⟩
    obtain ⟨v, hvF, hv0⟩ := hv _ _ _ _ _ ht
    rw [dif_pos hpos] at hv0
    injection hv0 with hv0
    rw [Set.mem_preimage, hv0]
    exact hvF
  have h4 : D (fin ⁻¹' F) = 0 := hG.measure_zero D
  have h5 : D (fin ⁻¹' F)ᶜ = 0 := by
    rw [← h2, Measure.map_apply m0 hG.measurableSet.compl]
    exact h3
  have h6 : D Set.univ ≤ D (fin ⁻¹' F) + D (fin ⁻¹' F)ᶜ := by
    rw [← Set.union_compl_self (fin ⁻¹' F : Set ℝ)]
    exact measure_union_le _ _
  rw [h4, h5, measure_univ] at h6
  simp at h6

end
end Stats.Vec

namespace Stats.Vec.ExamplesC46
open Fl Spec Stats.Vec

section
open scoped Stats.Fair

/-- the hypotheses are met: a thousand normal numbers, without OpenMP -/
example (out : ℕ → Option Fl) : IidFill Tape.tapeLaw
    (fun s s' o => RandVecSerial (Gen.ofFun fun s => some (rnorm (fin 3) (fin 2) s)) 1000 s out s' o) 1000 out
    (densLaw (normPdf 3 2)) := by
  have : SFinite (densLaw (normPdf 3 2)) := by rw [densLaw]; infer_instance
  exact C46_noomp (C32_rnorm Tape.fair 3 (by norm_num)) 1000 out

/-- three gamma numbers with OpenMP and two threads -/
example (out : ℕ → Option Fl) : IidFill Tape.tapeLaw
    (fun s s' o => ∃ tr, RandVec (Gen.ofFun (rgamma (fin (5 / 2)) (fin 3))) 3 2 s out tr s' o) 3 out
    (densLaw (gammaPdf (5 / 2) 3)) := by
  have : SFinite (densLaw (gammaPdf (5 / 2) 3)) := by rw [densLaw]; infer_instance
  exact C46_openmp_partial (C31_rgamma Tape.fair Fair.next (by norm_num) (Fair.eps_le (by norm_num)))
    (by decide) out

end

section
open scoped Stats.Exact

/-- twenty normal numbers with OpenMP, even with a single thread -/
example (out : ℕ → Option Fl) : ¬ IidFill Tape.tapeLaw
    (fun s s' o => ∃ tr, RandVec (Gen.ofFun fun s => some (rnorm (fin 3) (fin 2) s)) 20 1 s out tr s' o) 20 out
    (densLaw (normPdf 3 2)) := by
  have : IsProbabilityMeasure (densLaw (normPdf 3 2)) := (isCdf_norm 3 (by norm_num)).isProb
  have : NullSingletonClass (densLaw (normPdf 3 2)) := by rw [densLaw]; infer_instance
  exact C46_parallel_violated (by norm_num) (by norm_num) (by decide) out

end
end Stats.Vec.ExamplesC46

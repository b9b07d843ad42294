import Verif.Lemmas.GammaLaw
import Verif.Lemmas.FairInst

/-!
# C31: the gamma generator

rand/rgamma.ipp: Marsaglia and Tsang's rejection loop for shapes above 1, and a boost for shapes up to 1. With an
ideal engine and exact arithmetic the loop stops with probability one and the result has the gamma law.
-/

set_option linter.unusedSectionVars false
open Classical
open MeasureTheory Set
open scoped ENNReal

namespace Stats
open Fl Spec
variable [Lib] [Ideal] {S : Type*} [MeasurableSpace S] [Engine S] {P : Measure S}

/-- the normal variate of the engine -/
theorem fair_norm (hP : FairEngine P) :
    ∃ Z N, Draw P Z N (densLaw (normPdf 0 1)) ∧ ∀ᵐ s ∂P, Engine.norm s = (Z s, N s) := by
  obtain ⟨Z, N, hd, h⟩ := hasLaw_iff.1 hP.norm
  refine ⟨Z, N, hd, h.mono fun s hs => ?_⟩
  have := Option.some.inj hs
  simp only [Prod.mk.injEq, Fl.fin.injEq] at this
  exact Prod.ext this.1 this.2

instance normLaw_prob : IsProbabilityMeasure (densLaw (normPdf 0 1)) := (isCdf_norm 0 one_pos).isProb

instance unifLaw_prob : IsProbabilityMeasure (volume.restrict (Ioo (0 : ℝ) 1)) := ⟨by simp⟩

/-- the accepted states of the loop: `Z` is the normal variate, `U` the uniform one -/
def gLoopAcc (Z U : S → ℝ) (N1 : S → S) (d c : ℝ) : Set S := {s | (Z s, U (N1 s)) ∈ gammaAcc d c}

/-- the state after a rejected round -/
noncomputable def gLoopNext (Z : S → ℝ) (N1 N2 : S → S) (c : ℝ) (s : S) : S := if Z s ≤ -1 / c then N1 s else N2 (N1 s)

/-- nothing unusual happens in this round -/
def GLoopGood (Z U : S → ℝ) (N1 N2 : S → S) (s : S) : Prop := Engine.norm s = (Z s, N1 s) ∧
  runif (fin 0) (fin 1) (N1 s) = (fin (U (N1 s)), N2 (N1 s)) ∧ 0 < U (N1 s)

/-- one round of the loop, whatever the law `E` of the uniform variate -/
theorem rgamma_loop_parts (hP : FairEngine P) {E : Measure ℝ} [IsProbabilityMeasure E] {U : S → ℝ} {N2 : S → S}
    (hU : Draw P U N2 E) (eU : ∀ᵐ s ∂P, runif (fin 0) (fin 1) s = (fin (U s), N2 s) ∧ 0 < U s ∧ U s < 1) (d c : ℝ) :
    ∃ Z N1, Measurable Z ∧ Measurable N1 ∧ MeasurableSet (gLoopAcc Z U N1 d c) ∧ Measurable (gLoopNext Z N1 N2 c) ∧
      (∀ B : Set (ℝ × S), MeasurableSet B → P {s | s ∈ gLoopAcc Z U N1 d c ∧ ((1 + c * Z s) ^ 3, N2 (N1 s)) ∈ B} =
        ((gammaSubOf E d c).prod P) B) ∧
      (∀ C : Set S, MeasurableSet C → P {s | s ∉ gLoopAcc Z U N1 d c ∧ gLoopNext Z N1 N2 c s ∈ C} =
        (1 - gammaSubOf E d c univ) * P C) ∧
      gammaSubOf E d c univ ≤ 1 ∧ ∀ᵐ s ∂P, ∀ j, GLoopGood Z U N1 N2 ((gLoopNext Z N1 N2 c)^[j] s) := by
  have := hP.prob
  obtain ⟨Z, N1, hZ, eZ⟩ := fair_norm hP
  have hJ := hZ.comp hU
  set J := (densLaw (normPdf 0 1)).prod E with hJd
  have hE := measurableSet_gammaAcc d c
  let T : ℝ × ℝ → ℝ := fun p => (1 + c * p.1) ^ 3
  have hT : Measurable T := by fun_prop
  let acc : Set S := gLoopAcc Z U N1 d c
  let V : S → ℝ := fun s => T (Z s, U (N1 s))
  let M : S → S := fun s => N2 (N1 s)
  let R : S → S := gLoopNext Z N1 N2 c
  have hlow : MeasurableSet {s | Z s ≤ -1 / c} := measurableSet_le hZ.mX measurable_const
  have hacc : MeasurableSet acc := hJ.mX hE
  have hV : Measurable V := hT.comp hJ.mX
  have hM : Measurable M := hJ.mN
  have hR : Measurable R := Measurable.ite hlow hZ.mN hJ.mN
  have hfin : IsFiniteMeasure (gammaSubOf E d c) := by rw [gammaSubOf]; infer_instance
  have hAu : gammaSubOf E d c univ = J (gammaAcc d c) := by
    rw [gammaSubOf, Measure.map_apply hT MeasurableSet.univ, preimage_univ, Measure.restrict_apply_univ]
  have joint : ∀ B : Set ((ℝ × ℝ) × S), MeasurableSet B → P {s | ((Z s, U (N1 s)), M s) ∈ B} = (J.prod P) B := by
    intro B hB
    rw [← hJ.law, Measure.map_apply (hJ.mX.prodMk hJ.mN) hB]; rfl
  have hA : ∀ B : Set (ℝ × S), MeasurableSet B → P {s | s ∈ acc ∧ (V s, M s) ∈ B} = ((gammaSubOf E d c).prod P) B := by
    intro B hB
    have e : (gammaSubOf E d c).prod P = ((J.restrict (gammaAcc d c)).prod P).map (Prod.map T id) := by
      rw [← Measure.map_prod_map _ _ hT measurable_id, Measure.map_id]; rfl
    have e2 : (J.restrict (gammaAcc d c)).prod P = (J.prod P).restrict (gammaAcc d c ×ˢ univ) := by
      rw [← Measure.prod_restrict, Measure.restrict_univ]
    have hTi : Measurable (Prod.map T (id : S → S)) := hT.prodMap measurable_id
    rw [e, Measure.map_apply hTi hB, e2, Measure.restrict_apply (hTi hB),
      ← joint _ ((hTi hB).inter (hE.prod MeasurableSet.univ))]
    congr 1
    ext s
    simp only [mem_ofPred_eq, mem_inter_iff, mem_preimage, mem_prod, mem_univ, and_true, Prod.map, id]
    exact and_comm
  have hr : ∀ C : Set S, MeasurableSet C → P {s | s ∉ acc ∧ R s ∈ C} = (1 - gammaSubOf E d c univ) * P C := by
    intro C hC
    have hLm : MeasurableSet {p : ℝ × ℝ | p.1 ≤ -1 / c} := measurableSet_le measurable_fst measurable_const
    have hQm : MeasurableSet ({p : ℝ × ℝ | p.1 ≤ -1 / c}ᶜ ∩ (gammaAcc d c)ᶜ) := hLm.compl.inter hE.compl
    have s1 : {s | s ∉ acc ∧ R s ∈ C} = {s | (Z s, N1 s) ∈ Iic (-1 / c) ×ˢ C} ∪
        {s | ((Z s, U (N1 s)), M s) ∈ ({p : ℝ × ℝ | p.1 ≤ -1 / c}ᶜ ∩ (gammaAcc d c)ᶜ) ×ˢ C} := by
      ext s
      simp only [acc, gLoopAcc, R, gLoopNext, M, mem_ofPred_eq, mem_union, mem_prod, mem_Iic, mem_inter_iff, mem_compl_iff]
      by_cases hz : Z s ≤ -1 / c
      · have : (Z s, U (N1 s)) ∉ gammaAcc d c := fun q => absurd q.1 (not_lt.2 hz)
        simp [hz, this]
      · simp [hz]
    have hdis : Disjoint {s | (Z s, N1 s) ∈ Iic (-1 / c) ×ˢ C}
        {s | ((Z s, U (N1 s)), M s) ∈ ({p : ℝ × ℝ | p.1 ≤ -1 / c}ᶜ ∩ (gammaAcc d c)ᶜ) ×ˢ C} := by
      refine Set.disjoint_left.2 fun s h1 h2 => h2.1.1 h1.1
    have m2 : MeasurableSet {s | ((Z s, U (N1 s)), M s) ∈ ({p : ℝ × ℝ | p.1 ≤ -1 / c}ᶜ ∩ (gammaAcc d c)ᶜ) ×ˢ C} :=
      (hJ.mX.prodMk hJ.mN) (hQm.prod hC)
    have p1 : P {s | (Z s, N1 s) ∈ Iic (-1 / c) ×ˢ C} = J {p : ℝ × ℝ | p.1 ≤ -1 / c} * P C := by
      have : P {s | (Z s, N1 s) ∈ Iic (-1 / c) ×ˢ C} = (P.map fun s => (Z s, N1 s)) (Iic (-1 / c) ×ˢ C) := by
        rw [Measure.map_apply (hZ.mX.prodMk hZ.mN) (measurableSet_Iic.prod hC)]; rfl
      rw [this, hZ.law, Measure.prod_prod]
      congr 1
      have : {p : ℝ × ℝ | p.1 ≤ -1 / c} = Iic (-1 / c) ×ˢ univ := by ext p; simp
      rw [this, hJd, Measure.prod_prod, measure_univ, mul_one]
    rw [s1, measure_union hdis m2, p1, joint _ (hQm.prod hC), Measure.prod_prod, ← add_mul, hAu]
    congr 1
    have hsub : {p : ℝ × ℝ | p.1 ≤ -1 / c} ∪ ({p : ℝ × ℝ | p.1 ≤ -1 / c}ᶜ ∩ (gammaAcc d c)ᶜ) = (gammaAcc d c)ᶜ := by
      ext p
      simp only [mem_union, mem_ofPred_eq, mem_inter_iff, mem_compl_iff]
      by_cases hz : p.1 ≤ -1 / c
      · have : p ∉ gammaAcc d c := fun q => absurd q.1 (not_lt.2 hz)
        simp [hz, this]
      · simp [hz]
    rw [← measure_union (Set.disjoint_left.2 fun p h1 h2 => h2.1 h1) hQm, hsub, prob_compl_eq_one_sub hE]
  -- all states visited are good ones
  let good : S → Prop := GLoopGood Z U N1 N2
  have hgood : ∀ᵐ s ∂P, good s := by
    filter_upwards [eZ, hZ.ae eU] with s h1 h2 using ⟨h1, h2.1, h2.2.1⟩
  have hstep : ∀ p : S → Prop, (∀ᵐ s ∂P, p s) → ∀ᵐ s ∂P, p (R s) := by
    intro p hp
    have hJp : IsProbabilityMeasure (J : Measure (ℝ × ℝ)) := by rw [hJd]; infer_instance
    filter_upwards [hZ.ae hp, hJ.ae hp] with s h1 h2
    simp only [R, gLoopNext]
    split_ifs
    · exact h1
    · exact h2
  have hall : ∀ᵐ s ∂P, ∀ j, good (R^[j] s) := by
    rw [ae_all_iff]
    intro j
    induction j with
    | zero => exact hgood
    | succ j ih => exact hstep _ ih
  exact ⟨Z, N1, hZ.mX, hZ.mN, hacc, hR, hA, hr, by rw [hAu]; exact prob_le_one, hall⟩

omit [MeasurableSpace S] in
/-- the loop stops at the first accepted round -/
theorem rgamma_loop_run {Z U : S → ℝ} {N1 N2 : S → S} {d c : ℝ} (hc : 0 < c) (k : ℕ) (s : S)
    (hg : ∀ j, GLoopGood Z U N1 N2 ((gLoopNext Z N1 N2 c)^[j] s))
    (hno : ∀ j < k, (gLoopNext Z N1 N2 c)^[j] s ∉ gLoopAcc Z U N1 d c)
    (hs : (gLoopNext Z N1 N2 c)^[k] s ∈ gLoopAcc Z U N1 d c) :
    rgamma_loop (fin d) (fin c) (k + 1) s = some (fin ((1 + c * Z ((gLoopNext Z N1 N2 c)^[k] s)) ^ 3),
      N2 (N1 ((gLoopNext Z N1 N2 c)^[k] s))) := by
  induction k generalizing s with
  | zero =>
    obtain ⟨g1, g2, g3⟩ : GLoopGood Z U N1 N2 s := hg 0
    rw [rgamma_loop_step hc 0 g1 hs.1 g2 g3]
    exact if_pos hs.2
  | succ k ih =>
    obtain ⟨g1, g2, g3⟩ : GLoopGood Z U N1 N2 s := hg 0
    have h0 := hno 0 (by omega)
    have hrest := ih (gLoopNext Z N1 N2 c s) (fun j => hg (j + 1)) (fun j hj => hno (j + 1) (by omega)) hs
    have e : rgamma_loop (fin d) (fin c) (k + 1 + 1) s = rgamma_loop (fin d) (fin c) (k + 1) (gLoopNext Z N1 N2 c s) := by
      by_cases hz : Z s ≤ -1 / c
      · have hRs : gLoopNext Z N1 N2 c s = N1 s := if_pos hz
        rw [rgamma_loop_reject1 hc (k + 1) g1 hz, hRs]
      · have hRs : gLoopNext Z N1 N2 c s = N2 (N1 s) := if_neg hz
        rw [rgamma_loop_step hc (k + 1) g1 (not_le.1 hz) g2 g3, hRs]
        exact if_neg fun q => h0 ⟨not_le.1 hz, q⟩
    rw [e, hrest]; rfl

/-- the loop, as a draw, whatever the law `E` of the uniform variate -/
theorem rgamma_loop_draw_of (hP : FairEngine P) {E : Measure ℝ} [IsProbabilityMeasure E] {U : S → ℝ} {N2 : S → S}
    (hU : Draw P U N2 E) (eU : ∀ᵐ s ∂P, runif (fin 0) (fin 1) s = (fin (U s), N2 s) ∧ 0 < U s ∧ U s < 1) {d c : ℝ}
    (hc : 0 < c) (hne : gammaSubOf E d c univ ≠ 0) :
    ∃ X N, Draw P X N ((gammaSubOf E d c univ)⁻¹ • gammaSubOf E d c) ∧
      ∀ᵐ s ∂P, runFuel (fun k => rgamma_loop (fin d) (fin c) k s) = some (fin (X s), N s) := by
  have := hP.prob
  obtain ⟨Z, N1, mZ, mN, hacc, hR, hA, hr, h1, hall⟩ := rgamma_loop_parts hP hU eU d c
  have hfin : IsFiniteMeasure (gammaSubOf E d c) := by rw [gammaSubOf]; infer_instance
  obtain ⟨X, N, hX, hk⟩ := draw_loop hacc (V := fun s => (1 + c * Z s) ^ 3) (M := fun s => N2 (N1 s)) (by fun_prop)
    (hU.mN.comp mN) hR hne h1 hA hr
  refine ⟨X, N, hX, ?_⟩
  filter_upwards [hk, hall] with s hs hg
  obtain ⟨k, h1, h2, h3, h4⟩ := hs
  rw [h3, h4]
  exact runFuel_eq (rgamma_loop_mono _ _ s) (rgamma_loop_run hc k s hg h1 h2)

/-- the loop, as a draw -/
theorem rgamma_loop_draw (hP : FairEngine P) (hn : Lib.next 0 1 = 0) {a c : ℝ} (ha : 1 < a) (hc : 0 < c)
    (h : (a - 1 / 3) * (9 * c ^ 2) = 1) :
    ∃ X N, Draw P X N ((gammaSub (a - 1 / 3) c univ)⁻¹ • gammaSub (a - 1 / 3) c) ∧
      ∀ᵐ s ∂P, runFuel (fun k => rgamma_loop (fin (a - 1 / 3)) (fin c) k s) = some (fin (X s), N s) := by
  obtain ⟨U, N2, hU, eU⟩ := fair_runif hP hn
  exact rgamma_loop_draw_of hP hU eU hc (gammaSub_univ_ne_zero ha hc h)

/-- `rgamma`, shapes above 1, with any fuel for the recursion -/
theorem rgamma_big_draw (hP : FairEngine P) (hn : Lib.next 0 1 = 0) {a θ : ℝ} (ha : 1 < a) (hθ : Lib.eps ≤ θ) :
    ∃ X N, Draw P X N (densLaw (gammaPdf a θ)) ∧
      ∀ᵐ s ∂P, ∀ n, rgamma_rec (n + 1) (fin a) (fin θ) s = some (fin (X s), N s) := by
  have := hP.prob
  have hθ0 : 0 < θ := Lib.eps_pos.trans_le hθ
  have hd : 0 < a - 1 / 3 := by linarith
  have hs : 0 < √(a - 1 / 3) := Real.sqrt_pos.2 hd
  have hc : 0 < 1 / 3 / √(a - 1 / 3) := by positivity
  have hrel : (a - 1 / 3) * (9 * (1 / 3 / √(a - 1 / 3)) ^ 2) = 1 := by
    rw [div_pow, Real.sq_sqrt hd.le]
    generalize a - 1 / 3 = d at hd
    field_simp
    norm_num
  obtain ⟨X, N, hX, h⟩ := rgamma_loop_draw hP hn ha hc hrel
  have hA : SFinite ((gammaSub (a - 1 / 3) (1 / 3 / √(a - 1 / 3)) univ)⁻¹ • gammaSub (a - 1 / 3) (1 / 3 / √(a - 1 / 3))) := by
    have : SFinite (gammaSub (a - 1 / 3) (1 / 3 / √(a - 1 / 3))) := by rw [gammaSub]; infer_instance
    infer_instance
  have hW : Measurable fun v : ℝ => (a - 1 / 3) * v * θ := by fun_prop
  refine ⟨_, N, gammaSub_law ha hθ0 hc hrel ▸ hX.map hW, ?_⟩
  filter_upwards [h] with s hs n
  rw [rgamma_rec_big ha hθ, hs]
  simp only [Option.map_some, ideal]

/-- C31: `rgamma` returns with probability one and has the gamma law. -/
theorem rgamma_draw (hP : FairEngine P) (hn : Lib.next 0 1 = 0) {a θ : ℝ} (ha : 0 < a) (hθ : Lib.eps ≤ θ) :
    ∃ X N, Draw P X N (densLaw (gammaPdf a θ)) ∧ ∀ᵐ s ∂P, rgamma (fin a) (fin θ) s = some (fin (X s), N s) := by
  have := hP.prob
  have hθ0 : 0 < θ := Lib.eps_pos.trans_le hθ
  by_cases h1 : 1 < a
  · obtain ⟨X, N, hX, h⟩ := rgamma_big_draw hP hn h1 hθ
    refine ⟨X, N, hX, h.mono fun s hs => runFuel_eq (rgamma_rec_mono _ _ s) (hs 0)⟩
  · have h1 : a ≤ 1 := not_lt.1 h1
    obtain ⟨X, N, hX, h⟩ := rgamma_big_draw hP hn (show 1 < 1 + a by linarith) hθ
    obtain ⟨U, N0, hU, eU⟩ := fair_runif hP hn
    have hm : Measurable fun p : ℝ × ℝ => p.2 * p.1 ^ (1 / a) := by fun_prop
    refine ⟨_, _, gamma_boost ha hθ0 ▸ (hU.comp hX).map hm, ?_⟩
    filter_upwards [hU.ae h, eU] with s hs hu
    refine runFuel_eq (rgamma_rec_mono _ _ s) (n := 2) ?_
    show rgamma_rec (0 + 1 + 1) _ _ s = _
    rw [rgamma_rec_small ha h1 hθ _ hu.1 hu.2.1, hs 0]
    simp only [Option.map_some, ideal]

theorem C31_rgamma (hP : FairEngine P) (hn : Lib.next 0 1 = 0) {a θ : ℝ} (ha : 0 < a) (hθ : Lib.eps ≤ θ) :
    HasLaw P (rgamma (fin a) (fin θ)) (densLaw (gammaPdf a θ)) :=
  hasLaw_iff.2 (rgamma_draw hP hn ha hθ)

end Stats

namespace Stats.ExamplesC31
open Fl Spec
open scoped Stats.Fair

/-- a shape above 1 (the loop) and one below (the boost), on the ideal engine -/
example : HasLaw Tape.tapeLaw (rgamma (fin (5 / 2)) (fin 3)) (densLaw (gammaPdf (5 / 2) 3)) :=
  C31_rgamma Tape.fair Fair.next (by norm_num) (Fair.eps_le (by norm_num))

example : HasLaw Tape.tapeLaw (rgamma (fin (1 / 2)) (fin 2)) (densLaw (gammaPdf (1 / 2) 2)) :=
  C31_rgamma Tape.fair Fair.next (by norm_num) (Fair.eps_le (by norm_num))

end Stats.ExamplesC31

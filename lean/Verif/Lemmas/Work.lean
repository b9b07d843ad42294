import Verif.Spec.Work
import Verif.Lemmas.Near
import Verif.Props.C50
import Verif.Props.C55
import Mathlib.Analysis.SpecialFunctions.Integrals.Basic

/-! The number of rounds of the gamma loop, and the cost of calls made one after the other. -/

set_option linter.unusedSectionVars false
open MeasureTheory Set
open scoped ENNReal

namespace Stats
open Fl Spec

/-! ### acceptance -/

/-- the logarithm of the acceptance probability for a normal variate of at most one in size -/
theorem gammaCheck_ge {d c z : ℝ} (hd : 2 / 3 < d) (hc : 0 < c) (h : d * (9 * c ^ 2) = 1) (hz : |z| ≤ 1) :
    -(z ^ 4 / 10) ≤ gammaCheck d c z := by
  have hc1 : c ≤ 0.41 := by
    by_contra hcc
    push Not at hcc
    have : (0.41 : ℝ) ^ 2 < c ^ 2 := by gcongr
    nlinarith
  have ht : |(-(c * z))| ≤ 0.41 := by
    rw [abs_neg, abs_mul, abs_of_pos hc]
    calc c * |z| ≤ 0.41 * 1 := by gcongr
      _ = 0.41 := by norm_num
  have hlog := Real.abs_log_sub_add_sum_range_le (x := -(c * z)) (by linarith) 3
  rw [sub_neg_eq_add] at hlog
  simp only [Finset.sum_range_succ, Finset.sum_range_zero] at hlog
  norm_num at hlog
  simp only [← abs_mul] at hlog
  have hden : |c * z| ^ 4 / (1 - |c * z|) ≤ 1.7 * (c * z) ^ 4 := by
    rw [abs_neg] at ht
    rw [div_le_iff₀ (by linarith), show |c * z| ^ 4 = (c * z) ^ 4 from Even.pow_abs (by decide) _]
    nlinarith [show 0 ≤ (c * z) ^ 4 by positivity]
  have hl := (abs_le.1 (hlog.trans hden)).1
  rw [gammaCheck, Real.log_pow]
  push_cast
  have k1 : d * (1 - (1 + c * z) ^ 3 + 3 * Real.log (1 + c * z)) ≥
      d * (1 - (1 + c * z) ^ 3 + 3 * (c * z - (c * z) ^ 2 / 2 + (c * z) ^ 3 / 3 - 1.7 * (c * z) ^ 4)) := by
    have h0 : 0 ≤ d := by linarith
    have : c * z - (c * z) ^ 2 / 2 + (c * z) ^ 3 / 3 - 1.7 * (c * z) ^ 4 ≤ Real.log (1 + c * z) := by
      linarith
    gcongr
  have k2 : d * (1 - (1 + c * z) ^ 3 + 3 * (c * z - (c * z) ^ 2 / 2 + (c * z) ^ 3 / 3 - 1.7 * (c * z) ^ 4)) =
      -(z ^ 2) / 2 - 5.1 / 9 * c ^ 2 * z ^ 4 := by
    linear_combination (-(z ^ 2) / 2 - 5.1 / 9 * c ^ 2 * z ^ 4) * h
  have k3 : c ^ 2 ≤ 1 / 6 := by nlinarith [sq_nonneg c]
  have k4 : 5.1 / 9 * c ^ 2 * z ^ 4 ≤ 1 / 10 * z ^ 4 := by
    have : 0 ≤ z ^ 4 := by positivity
    gcongr
    linarith
  nlinarith

/-- at least 16 rounds in 25 are accepted -/
theorem gammaSub_univ_ge' {a c : ℝ} (ha : 1 < a) (hc : 0 < c) (h : (a - 1 / 3) * (9 * c ^ 2) = 1) :
    ENNReal.ofReal (16 / 25) ≤ gammaSub (a - 1 / 3) c univ := by
  have hd : 2 / 3 < a - 1 / 3 := by linarith
  rw [gammaSub_apply (by linarith) hc h MeasurableSet.univ, preimage_univ]
  simp only [indicator_univ]
  set d := a - 1 / 3 with hdd
  have hc1 : c ≤ 0.41 := by
    by_contra hcc
    push Not at hcc
    have : (0.41 : ℝ) ^ 2 < c ^ 2 := by gcongr
    nlinarith
  have hs : √(2 * Real.pi) ≤ 2.51 := by
    rw [Real.sqrt_le_left (by norm_num)]
    have := Real.pi_lt_d2
    nlinarith
  have hs0 : 0 < √(2 * Real.pi) := Real.sqrt_pos.2 (by positivity)
  have hlow : ∀ z ∈ Ioc (-1 : ℝ) 1, (1 - z ^ 2 / 2 - z ^ 4 / 10) / 2.51 ≤ normPdf 0 1 z * Real.exp (gammaCheck d c z) := by
    intro z hz
    have hz1 : |z| ≤ 1 := abs_le.2 ⟨hz.1.le, hz.2⟩
    have hg := gammaCheck_ge hd hc h hz1
    have e : normPdf 0 1 z * Real.exp (gammaCheck d c z) =
        1 / √(2 * Real.pi) * Real.exp (-z ^ 2 / 2 + gammaCheck d c z) := by
      rw [normPdf, Real.exp_add]
      simp only [sub_zero, one_pow, mul_one]
      ring
    rw [e]
    have h1 : 1 - z ^ 2 / 2 - z ^ 4 / 10 ≤ Real.exp (-z ^ 2 / 2 + gammaCheck d c z) := by
      have := Real.add_one_le_exp (-z ^ 2 / 2 + gammaCheck d c z); linarith
    have h2 : (0 : ℝ) ≤ 1 - z ^ 2 / 2 - z ^ 4 / 10 := by
      have a1 : z ^ 2 ≤ 1 := by rw [← sq_abs]; exact pow_le_one₀ (abs_nonneg z) hz1
      have a2 : z ^ 4 ≤ 1 := by rw [← Even.pow_abs (n := 4) (by decide)]; exact pow_le_one₀ (abs_nonneg z) hz1
      linarith
    rw [div_eq_inv_mul]
    have h3 : (2.51 : ℝ)⁻¹ ≤ 1 / √(2 * Real.pi) := by
      rw [one_div]; exact inv_anti₀ hs0 hs
    exact mul_le_mul h3 h1 h2 (by positivity)
  have hi : IntervalIntegrable (fun z : ℝ => (1 - z ^ 2 / 2 - z ^ 4 / 10) / 2.51) volume (-1) 1 :=
    Continuous.intervalIntegrable (by fun_prop) _ _
  have hval : (16 / 25 : ℝ) ≤ ∫ z in (-1 : ℝ)..1, (1 - z ^ 2 / 2 - z ^ 4 / 10) / 2.51 := by
    have i1 : IntervalIntegrable (fun z : ℝ => 1 - z ^ 2 / 2) volume (-1) 1 := Continuous.intervalIntegrable (by fun_prop) _ _
    have i2 : IntervalIntegrable (fun z : ℝ => z ^ 4 / 10) volume (-1) 1 := Continuous.intervalIntegrable (by fun_prop) _ _
    have i3 : IntervalIntegrable (fun _ : ℝ => (1 : ℝ)) volume (-1) 1 := Continuous.intervalIntegrable (by fun_prop) _ _
    have i4 : IntervalIntegrable (fun z : ℝ => z ^ 2 / 2) volume (-1) 1 := Continuous.intervalIntegrable (by fun_prop) _ _
    rw [intervalIntegral.integral_div, intervalIntegral.integral_sub i1 i2, intervalIntegral.integral_sub i3 i4,
      intervalIntegral.integral_div, intervalIntegral.integral_div, integral_pow, integral_pow]
    norm_num
  rw [intervalIntegral.integral_of_le (by norm_num)] at hval
  calc ENNReal.ofReal (16 / 25) ≤ ENNReal.ofReal (∫ z in Ioc (-1 : ℝ) 1, (1 - z ^ 2 / 2 - z ^ 4 / 10) / 2.51) :=
        ENNReal.ofReal_le_ofReal hval
    _ ≤ ∫⁻ z in Ioc (-1 : ℝ) 1, ENNReal.ofReal ((1 - z ^ 2 / 2 - z ^ 4 / 10) / 2.51) := by
        refine le_of_eq (ofReal_integral_eq_lintegral_ofReal hi.1 ?_)
        refine (ae_restrict_iff' measurableSet_Ioc).2 (Filter.Eventually.of_forall fun z hz => ?_)
        have hz1 : |z| ≤ 1 := abs_le.2 ⟨hz.1.le, hz.2⟩
        have a1 : z ^ 2 ≤ 1 := by rw [← sq_abs]; exact pow_le_one₀ (abs_nonneg z) hz1
        have a2 : z ^ 4 ≤ 1 := by rw [← Even.pow_abs (n := 4) (by decide)]; exact pow_le_one₀ (abs_nonneg z) hz1
        show (0 : ℝ) ≤ _
        apply div_nonneg <;> linarith
    _ ≤ ∫⁻ z in Ioc (-1 : ℝ) 1, ENNReal.ofReal (normPdf 0 1 z * Real.exp (gammaCheck d c z)) :=
        setLIntegral_mono' measurableSet_Ioc fun z hz => ENNReal.ofReal_le_ofReal (hlow z hz)
    _ ≤ _ := by
        refine lintegral_mono_set fun z hz => ?_
        have : -1 / c < -1 := by rw [div_lt_iff₀ hc]; linarith
        exact this.trans hz.1

/-! ### rounds -/

section loop
variable {S : Type*} [MeasurableSpace S] {P : Measure S}

/-- the probability that the first `n` rounds are rejected -/
theorem loop_tail [IsProbabilityMeasure P] {acc : Set S} (hacc : MeasurableSet acc) {R : S → S} (hR : Measurable R)
    {q : ℝ≥0∞} (hr : ∀ C : Set S, MeasurableSet C → P {s | s ∉ acc ∧ R s ∈ C} = q * P C) (n : ℕ) :
    MeasurableSet {s | ∀ j < n, R^[j] s ∉ acc} ∧ P {s | ∀ j < n, R^[j] s ∉ acc} = q ^ n := by
  induction n with
  | zero => simp
  | succ n ih =>
    have e : {s | ∀ j < n + 1, R^[j] s ∉ acc} = {s | s ∉ acc ∧ R s ∈ {s | ∀ j < n, R^[j] s ∉ acc}} := by
      ext s
      simp only [mem_ofPred_eq]
      constructor
      · intro h
        exact ⟨h 0 (by omega), fun j hj => by simpa using h (j + 1) (by omega)⟩
      · rintro ⟨h0, h1⟩ j hj
        cases j with
        | zero => exact h0
        | succ j => simpa using h1 j (by omega)
    constructor
    · rw [e]; exact hacc.compl.inter (hR ih.1)
    · rw [e, hr _ ih.1, ih.2, pow_succ, mul_comm]

end loop

/-! ### calls one after the other -/

section cost
variable {S : Type*} [MeasurableSpace S] {P : Measure S} {ι α β : Type*}

/-- The calls `g' x` return with probability one and leave a fresh engine; the number of variates they take is on average
at most `c`. -/
def HasCost (P : Measure S) (g' : ι → Counting S → Option (α × Counting S)) (c : ℝ≥0∞) : Prop :=
  ∃ (N : S → S) (B : S → ℝ≥0∞), Measurable N ∧ P.map N = P ∧ Measurable B ∧ ∫⁻ s, B s ∂P ≤ c ∧
    ∀ᵐ s ∂P, ∀ x, ∃ (v : α) (k : ℕ), (∀ m, g' x ⟨s, m⟩ = some (v, ⟨N s, m + k⟩)) ∧ (k : ℝ≥0∞) ≤ B s

theorem HasCost.drawn {g' : ι → Counting S → Option (α × Counting S)} {c : ℝ≥0∞} (h : HasCost P g' c) (x : ι) :
    ∫⁻ s, Spec.drawn (g' x) s ∂P ≤ c := by
  obtain ⟨N, B, -, -, -, hc, h⟩ := h
  refine le_trans (lintegral_mono_ae ?_) hc
  filter_upwards [h] with s hs
  obtain ⟨v, k, h1, h2⟩ := hs x
  rw [Spec.drawn, h1 0]
  simpa using h2

theorem HasCost.mono {g' : ι → Counting S → Option (α × Counting S)} {c c' : ℝ≥0∞} (h : HasCost P g' c) (hc : c ≤ c') :
    HasCost P g' c' := by
  obtain ⟨N, B, a, b, d, e, f⟩ := h
  exact ⟨N, B, a, b, d, e.trans hc, f⟩

theorem HasCost.congr {g' g'' : ι → Counting S → Option (α × Counting S)} {c : ℝ≥0∞} (h : HasCost P g' c)
    (e : ∀ x s, g'' x s = g' x s) : HasCost P g'' c := by
  have : g'' = g' := funext fun x => funext fun s => e x s
  rw [this]; exact h

theorem HasCost.comap {κ : Type*} {g' : ι → Counting S → Option (α × Counting S)} {c : ℝ≥0∞} (h : HasCost P g' c)
    (f : κ → ι) : HasCost P (fun x => g' (f x)) c := by
  obtain ⟨N, B, a, b, d, e, h⟩ := h
  exact ⟨N, B, a, b, d, e, h.mono fun s hs x => hs (f x)⟩

theorem HasCost.map {g' : ι → Counting S → Option (α × Counting S)} {c : ℝ≥0∞} (h : HasCost P g' c) (f : ι → α → β) :
    HasCost P (fun x s => (g' x s).map fun r => (f x r.1, r.2)) c := by
  obtain ⟨N, B, a, b, d, e, h⟩ := h
  refine ⟨N, B, a, b, d, e, h.mono fun s hs x => ?_⟩
  obtain ⟨v, k, h1, h2⟩ := hs x
  exact ⟨f x v, k, fun m => by show (g' x ⟨s, m⟩).map _ = _; rw [h1 m]; rfl, h2⟩

theorem HasCost.bind {g' : ι → Counting S → Option (α × Counting S)} {h' : ι × α → Counting S → Option (β × Counting S)}
    {c c' : ℝ≥0∞} (hg : HasCost P g' c) (hh : HasCost P h' c') :
    HasCost P (fun x s => (g' x s).bind fun r => h' (x, r.1) r.2) (c + c') := by
  obtain ⟨N, B, a, b, d, e, h⟩ := hg
  obtain ⟨N', B', a', b', d', e', h'⟩ := hh
  refine ⟨fun s => N' (N s), fun s => B s + B' (N s), a'.comp a, ?_, d.add (d'.comp a), ?_, ?_⟩
  · exact (Measure.map_map a' a).symm.trans (by rw [b, b'])
  · rw [lintegral_add_left d, ← lintegral_map d' a, b]
    exact add_le_add e e'
  · rw [← b] at h'
    have h2 := ae_of_ae_map a.aemeasurable h'
    filter_upwards [h, h2] with s h1 h2 x
    obtain ⟨v, k, h3, h4⟩ := h1 x
    obtain ⟨w, l, h5, h6⟩ := h2 (x, v)
    refine ⟨w, k + l, fun m => ?_, by push_cast; exact add_le_add h4 h6⟩
    show (g' x ⟨s, m⟩).bind _ = _
    rw [h3 m, Option.bind_some, h5, add_assoc]

theorem HasCost.pure (v : ι → α) (hP : IsProbabilityMeasure P) : HasCost P (fun x s => some (v x, s)) 0 :=
  ⟨id, 0, measurable_id, Measure.map_id, measurable_zero, by simp, Filter.Eventually.of_forall fun s x =>
    ⟨v x, 0, fun m => rfl, by simp⟩⟩

end cost

/-! ### the gamma generator -/

section gamma
variable [Lib] [Ideal] {S : Type*} [MeasurableSpace S] [Engine S] {P : Measure S}

omit [MeasurableSpace S] in
/-- the loop on the counting engine: at most two variates for each round -/
theorem rgamma_loop_count {Z U : S → ℝ} {N1 N2 : S → S} {d c : ℝ} (hc : 0 < c) (k : ℕ) (s : S)
    (hg : ∀ j, GLoopGood Z U N1 N2 ((gLoopNext Z N1 N2 c)^[j] s))
    (hno : ∀ j < k, (gLoopNext Z N1 N2 c)^[j] s ∉ gLoopAcc Z U N1 d c)
    (hs : (gLoopNext Z N1 N2 c)^[k] s ∈ gLoopAcc Z U N1 d c) :
    ∃ n ≤ 2 * (k + 1), ∀ m, rgamma_loop (fin d) (fin c) (k + 1) (⟨s, m⟩ : Counting S) =
      some (fin ((1 + c * Z ((gLoopNext Z N1 N2 c)^[k] s)) ^ 3), ⟨N2 (N1 ((gLoopNext Z N1 N2 c)^[k] s)), m + n⟩) := by
  have norm' : ∀ {s : S}, GLoopGood Z U N1 N2 s → ∀ m, Engine.norm (⟨s, m⟩ : Counting S) = (Z s, ⟨N1 s, m + 1⟩) := by
    intro s h m
    show ((Engine.norm s).1, (⟨(Engine.norm s).2, m + 1⟩ : Counting S)) = _
    rw [h.1]
  have unif' : ∀ {s : S}, GLoopGood Z U N1 N2 s → ∀ m, runif (fin 0) (fin 1) (⟨N1 s, m⟩ : Counting S) =
      (fin (U (N1 s)), ⟨N2 (N1 s), m + 1⟩) := by
    intro s h m
    have := counting_runif01 (N1 s) m
    rw [zero_eq, one_eq, h.2.1] at this
    exact this
  induction k generalizing s with
  | zero =>
    have g : GLoopGood Z U N1 N2 s := hg 0
    refine ⟨2, by omega, fun m => ?_⟩
    rw [rgamma_loop_step hc 0 (norm' g m) hs.1 (unif' g _) g.2.2]
    exact if_pos hs.2
  | succ k ih =>
    have g : GLoopGood Z U N1 N2 s := hg 0
    have h0 := hno 0 (by omega)
    obtain ⟨n, hn, hrest⟩ := ih (gLoopNext Z N1 N2 c s) (fun j => hg (j + 1)) (fun j hj => hno (j + 1) (by omega)) hs
    by_cases hz : Z s ≤ -1 / c
    · have hRs : gLoopNext Z N1 N2 c s = N1 s := if_pos hz
      refine ⟨n + 1, by omega, fun m => ?_⟩
      rw [rgamma_loop_reject1 hc (k + 1) (norm' g m) hz, ← hRs, hrest, show m + 1 + n = m + (n + 1) by omega]; rfl
    · have hRs : gLoopNext Z N1 N2 c s = N2 (N1 s) := if_neg hz
      refine ⟨n + 2, by omega, fun m => ?_⟩
      rw [rgamma_loop_step hc (k + 1) (norm' g m) (not_le.1 hz) (unif' g _) g.2.2,
        if_neg (show ¬ Real.log (U (N1 s)) < gammaCheck d c (Z s) from fun q => h0 ⟨not_le.1 hz, q⟩), ← hRs, hrest, show m + 1 + 1 + n = m + (n + 2) by omega]; rfl

/-- The loop for a shape above 1: `ρ` bounds the number of rounds. -/
theorem rgamma_loop_cost (hP : FairEngine P) (hδ : Lib.next 0 1 ≤ 1 / 30) {a c : ℝ} (ha : 1 < a) (hc : 0 < c)
    (h : (a - 1 / 3) * (9 * c ^ 2) = 1) :
    ∃ (N : S → S) (ρ : S → ℝ≥0∞), Measurable N ∧ P.map N = P ∧ Measurable ρ ∧ ∫⁻ s, ρ s ∂P ≤ 5 / 3 ∧
      (∀ n : ℕ, P {s | n < ρ s} ≤ (2 / 5) ^ n) ∧
      ∀ᵐ s ∂P, ∃ (v : Fl) (k : ℕ), (∀ m, runFuel (fun f => rgamma_loop (fin (a - 1 / 3)) (fin c) f (⟨s, m⟩ : Counting S)) =
        some (v, ⟨N s, m + k⟩)) ∧ (k : ℝ≥0∞) ≤ 2 * ρ s := by
  classical
  have := hP.prob
  have hδ1 : Lib.next 0 1 < 1 := by linarith
  obtain ⟨U, N2, hU, eU⟩ := true_runif hP hδ1
  have pE : IsProbabilityMeasure (densLaw (unifPdf (Lib.next 0 1) 1)) := (isCdf_unif hδ1).isProb
  set E := densLaw (unifPdf (Lib.next 0 1) 1) with hE
  set d := a - 1 / 3 with hdd
  have hT : Measurable fun p : ℝ × ℝ => (1 + c * p.1) ^ 3 := by fun_prop
  have hJ : Near ((densLaw (normPdf 0 1)).prod E) ((densLaw (normPdf 0 1)).prod (volume.restrict (Ioo (0 : ℝ) 1)))
      (ENNReal.ofReal (Lib.next 0 1)) := by
    have := (Near.refl (densLaw (normPdf 0 1))).prod (near_unif delta_nonneg hδ1)
    rwa [zero_add] at this
  have univ_eq : ∀ F : Measure ℝ, gammaSubOf F d c univ = (densLaw (normPdf 0 1)).prod F (gammaAcc d c) := fun F => by
    rw [gammaSubOf, Measure.map_apply hT MeasurableSet.univ, preimage_univ, Measure.restrict_apply_univ]
  have hacc : ENNReal.ofReal (3 / 5) ≤ gammaSubOf E d c univ := by
    have h1 : ENNReal.ofReal (16 / 25) ≤ (densLaw (normPdf 0 1)).prod (volume.restrict (Ioo (0 : ℝ) 1)) (gammaAcc d c) := by
      rw [← univ_eq]; exact gammaSub_univ_ge' ha hc h
    have h2 := h1.trans (hJ.ge _ (measurableSet_gammaAcc d c))
    rw [univ_eq]
    have h3 := ENNReal.toReal_mono (by finiteness) h2
    rw [ENNReal.toReal_add (by finiteness) (by finiteness), ENNReal.toReal_ofReal delta_nonneg,
      ENNReal.toReal_ofReal (by norm_num)] at h3
    rw [← ENNReal.ofReal_toReal (measure_ne_top ((densLaw (normPdf 0 1)).prod E) (gammaAcc d c))]
    exact ENNReal.ofReal_le_ofReal (by linarith)
  have hne : gammaSubOf E d c univ ≠ 0 := by
    intro h0; rw [h0] at hacc; simp at hacc; linarith
  obtain ⟨X, N, hX, hN⟩ := rgamma_loop_draw_of hP hU eU hc hne
  have hXp : IsProbabilityMeasure ((gammaSubOf E d c univ)⁻¹ • gammaSubOf E d c) := by
    have : SFinite (gammaSubOf E d c) := by rw [gammaSubOf]; infer_instance
    exact hX.isProb
  obtain ⟨Z, N1, mZ, mN, mA, mR, hA, hr, h1, hall⟩ := rgamma_loop_parts hP hU eU d c
  have hA35 : (gammaSubOf E d c univ)⁻¹ ≤ 5 / 3 := by
    rw [ENNReal.inv_le_iff_inv_le]
    refine le_trans (le_of_eq ?_) hacc
    rw [ENNReal.inv_div (by norm_num) (by norm_num), ENNReal.ofReal_div_of_pos (by norm_num)]
    norm_num
  have hq : 1 - gammaSubOf E d c univ ≤ 2 / 5 := by
    refine (tsub_le_tsub_left hacc 1).trans ?_
    rw [← ENNReal.ofReal_one, ← ENNReal.ofReal_sub _ (by norm_num)]
    refine le_of_eq ?_
    rw [show (1 : ℝ) - 3 / 5 = 2 / 5 by norm_num, ENNReal.ofReal_div_of_pos (by norm_num)]
    norm_num
  set R := gLoopNext Z N1 N2 c
  set acc := gLoopAcc Z U N1 d c
  let T : ℕ → Set S := fun n => {s | ∀ j < n, R^[j] s ∉ acc}
  have hTt : ∀ n, MeasurableSet (T n) ∧ P (T n) = (1 - gammaSubOf E d c univ) ^ n := fun n => loop_tail mA mR hr n
  have hanti : ∀ {m n}, m ≤ n → T n ⊆ T m := fun hmn s hs j hj => hs j (by omega)
  let ρ : S → ℝ≥0∞ := fun s => ∑' n, (T n).indicator 1 s
  have hρ : Measurable ρ := Measurable.ennreal_tsum fun n => measurable_one.indicator (hTt n).1
  have hle : ∀ {s : S} {n : ℕ}, s ∉ T n → ρ s ≤ n := by
    intro s n hs
    have : ρ s = ∑ i ∈ Finset.range n, (T i).indicator 1 s := by
      refine tsum_eq_sum fun i hi => indicator_of_notMem (fun hc => hs (hanti ?_ hc)) _
      simpa using hi
    rw [this]
    refine (Finset.sum_le_card_nsmul _ _ 1 fun i _ => ?_).trans (by simp)
    rw [indicator_apply]; split_ifs <;> simp
  have hge : ∀ {s : S} {k : ℕ}, s ∈ T k → ((k + 1 : ℕ) : ℝ≥0∞) ≤ ρ s := by
    intro s k hs
    refine le_trans ?_ (ENNReal.sum_le_tsum (Finset.range (k + 1)))
    rw [Finset.sum_congr rfl (g := fun _ => (1 : ℝ≥0∞)) fun i hi => indicator_of_mem
      (hanti (Nat.lt_succ_iff.1 (Finset.mem_range.1 hi)) hs) _]
    simp
  refine ⟨N, ρ, hX.mN, hX.next, hρ, ?_, ?_, ?_⟩
  · show ∫⁻ s, ∑' n, (T n).indicator 1 s ∂P ≤ _
    rw [lintegral_tsum fun n => (measurable_one.indicator (hTt n).1).aemeasurable]
    simp_rw [lintegral_indicator_one (hTt _).1, (hTt _).2]
    rw [ENNReal.tsum_geometric, ENNReal.sub_sub_cancel ENNReal.one_ne_top h1]
    exact hA35
  · intro n
    refine (measure_mono (t := T n) fun s hs => ?_).trans ?_
    · by_contra hc
      exact absurd hs (not_lt.2 (hle hc))
    · rw [(hTt n).2]; gcongr
  · have hfin : IsFiniteMeasure (gammaSubOf E d c) := by rw [gammaSubOf]; infer_instance
    obtain ⟨X', N', hX', hk⟩ := draw_loop mA (V := fun s => (1 + c * Z s) ^ 3) (M := fun s => N2 (N1 s)) (by fun_prop)
      (hU.mN.comp mN) mR hne h1 hA hr
    filter_upwards [hN, hk, hall] with s hs hs' hg
    obtain ⟨k, k1, k2, -, -⟩ := hs'
    obtain ⟨n, hn, hrun⟩ := rgamma_loop_count hc k s hg k1 k2
    have e := runFuel_eq (rgamma_loop_mono _ _ s) (rgamma_loop_run hc k s hg k1 k2)
    rw [hs] at e
    have e2 := (Prod.ext_iff.1 (Option.some.inj e)).2
    refine ⟨fin ((1 + c * Z (R^[k] s)) ^ 3), n, fun m => runFuel_eq (rgamma_loop_mono _ _ _) (n := k + 1) ?_, ?_⟩
    · rw [hrun m]; rw [show N s = _ from e2]
    · calc ((n : ℕ) : ℝ≥0∞) ≤ ((2 * (k + 1) : ℕ) : ℝ≥0∞) := by exact_mod_cast hn
        _ = 2 * ((k + 1 : ℕ) : ℝ≥0∞) := by push_cast; ring
        _ ≤ 2 * ρ s := by gcongr; exact hge k1

end gamma

end Stats

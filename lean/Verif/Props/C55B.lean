import Verif.Lemmas.Work
import Verif.Props.C47

/-!
# C55: how many random variates the generators with a rejection loop take

Marsaglia and Tsang's loop accepts at least three rounds in five whatever the shape. So the expected number of variates
of `rgamma` and of all generators built on it is bounded, uniformly in the parameters, and long runs are exponentially
unlikely. With an infinite shape, which the parameter checks let through, the loop never ends.
-/

set_option linter.unusedSectionVars false
open Classical
open MeasureTheory Set
open scoped ENNReal

namespace Stats
open Fl Spec Vec MatOps

/-! ### the counter changes nothing -/

section faithful

/-- runs with fuel that end together -/
theorem runFuel_same {α : Type*} (f : ℕ → Option α) :
    ∃ n, runFuel f = f n ∧ ∀ {β : Type*} (f' : ℕ → Option β), (∀ n, (f' n).isSome = (f n).isSome) → runFuel f' = f' n := by
  by_cases h : ∃ n, (f n).isSome
  · refine ⟨Nat.find h, by rw [runFuel, dif_pos h], fun f' hf => ?_⟩
    have h' : ∃ n, (f' n).isSome := by obtain ⟨n, hn⟩ := h; exact ⟨n, by rw [hf]; exact hn⟩
    rw [runFuel, dif_pos h']
    congr 1
    exact Nat.find_congr' fun {n} => by rw [hf]
  · refine ⟨0, ?_, fun f' hf => ?_⟩
    · rw [runFuel, dif_neg h]
      exact (Option.not_isSome_iff_eq_none.1 (not_exists.1 h 0)).symm
    · have h' : ¬ ∃ n, (f' n).isSome := by rintro ⟨n, hn⟩; exact h ⟨n, by rw [← hf]; exact hn⟩
      rw [runFuel, dif_neg h']
      exact (Option.not_isSome_iff_eq_none.1 (not_exists.1 h' 0)).symm

variable [Lib] {S : Type*} [Engine S]

theorem Spec.Faithful.runFuel {α : Type*} {f : ℕ → S → Option (α × S)} {f' : ℕ → Counting S → Option (α × Counting S)}
    (h : ∀ n, Faithful (f n) (f' n)) : Faithful (fun s => runFuel fun n => f n s) (fun s => runFuel fun n => f' n s) := by
  intro s
  obtain ⟨n, h1, h2⟩ := runFuel_same fun n => f n s
  obtain ⟨k, hk⟩ := h n s
  refine ⟨k, fun m => ?_⟩
  show Stats.runFuel (fun n => f' n ⟨s, m⟩) = (Stats.runFuel fun n => f n s).map _
  rw [h1, h2 (fun n => f' n ⟨s, m⟩) fun i => ?_]
  · exact hk m
  · obtain ⟨l, hl⟩ := h i s
    rw [hl m, Option.isSome_map]

theorem Spec.Faithful.map {α β : Type*} {g : S → Option (α × S)} {g' : Counting S → Option (α × Counting S)}
    (h : Faithful g g') (f : α → β) :
    Faithful (fun s => (g s).map fun r => (f r.1, r.2)) (fun s => (g' s).map fun r => (f r.1, r.2)) := by
  intro s
  obtain ⟨k, hk⟩ := h s
  refine ⟨k, fun m => ?_⟩
  show (g' ⟨s, m⟩).map _ = _
  rw [hk m, Option.map_map, Option.map_map]; rfl

theorem Spec.Faithful.bind {α β : Type*} {g : S → Option (α × S)} {g' : Counting S → Option (α × Counting S)}
    {e : α → S → Option (β × S)} {e' : α → Counting S → Option (β × Counting S)}
    (h : Faithful g g') (he : ∀ a, Faithful (e a) (e' a)) :
    Faithful (fun s => (g s).bind fun r => e r.1 r.2) (fun s => (g' s).bind fun r => e' r.1 r.2) := by
  intro s
  obtain ⟨k, hk⟩ := h s
  cases hg : g s with
  | none => exact ⟨0, fun m => by
      show (g' ⟨s, m⟩).bind _ = ((g s).bind _).map _; rw [hk m, hg]; rfl⟩
  | some r =>
    obtain ⟨l, hl⟩ := he r.1 r.2
    refine ⟨k + l, fun m => ?_⟩
    show (g' ⟨s, m⟩).bind _ = ((g s).bind _).map _
    rw [hk m, hg, Option.map_some, Option.bind_some, hl, add_assoc]; rfl

theorem Spec.Draws.faithful {α : Type*} {g : S → Option (α × S)} {g' : Counting S → Option (α × Counting S)} {k : ℕ}
    (h : Draws g g' k) : Faithful g g' := fun s => ⟨k, h s⟩

theorem rgamma_loop_faithful (d c : Fl) (f : ℕ) :
    Faithful (fun s : S => rgamma_loop d c f s) (fun s => rgamma_loop d c f s) := by
  induction f with
  | zero => exact fun s => ⟨0, fun m => rfl⟩
  | succ f ih =>
    intro s
    by_cases h1 : (rnorm 0 1 s).1 > -1 / c
    · by_cases h2 : log (runif 0 1 (rnorm 0 1 s).2).1 < half * (rnorm 0 1 s).1 * (rnorm 0 1 s).1 +
          d * (1 - powi (1 + c * (rnorm 0 1 s).1) 3 + log (powi (1 + c * (rnorm 0 1 s).1) 3))
      · refine ⟨2, fun m => ?_⟩
        simp only [rgamma_loop, counting_rnorm01, counting_runif01, h1, h2, if_true]; rfl
      · obtain ⟨k, hk⟩ := ih (runif 0 1 (rnorm 0 1 s).2).2
        refine ⟨k + 2, fun m => ?_⟩
        simp only [rgamma_loop, counting_rnorm01, counting_runif01, h1, h2, if_true, if_false]
        rw [show m + (k + 2) = m + 1 + 1 + k by omega]
        exact hk _
    · obtain ⟨k, hk⟩ := ih (rnorm 0 1 s).2
      refine ⟨k + 1, fun m => ?_⟩
      simp only [rgamma_loop, counting_rnorm01, h1, if_false]
      rw [show m + (k + 1) = m + 1 + k by omega]
      exact hk _

theorem rgamma_rec_faithful (n : ℕ) (shape scale : Fl) :
    Faithful (fun s : S => rgamma_rec n shape scale s) (fun s => rgamma_rec n shape scale s) := by
  induction n generalizing shape with
  | zero => exact fun s => ⟨0, fun m => rfl⟩
  | succ n ih =>
    intro s
    by_cases h0 : gamma_ok shape scale
    · by_cases h1 : shape > 1
      · simp only [rgamma_rec, h0, h1, not_true, if_false, if_true]
        exact (Faithful.runFuel fun k => rgamma_loop_faithful _ _ k).map
          (fun v => (shape - 1 / 3) * v * scale) s
      · obtain ⟨k, hk⟩ := ih (1 + shape) (runif 0 1 s).2
        refine ⟨k + 1, fun m => ?_⟩
        simp only [rgamma_rec, h0, h1, not_true, if_false, counting_runif01]
        have hk : rgamma_rec n (1 + shape) scale (⟨(runif 0 1 s).2, m + 1⟩ : Counting S) = _ := hk _
        rw [hk, Option.map_map, Option.map_map, show m + 1 + k = m + (k + 1) by omega]; rfl
    · refine ⟨0, fun m => ?_⟩
      simp only [rgamma_rec, h0, not_false_iff, if_true]; rfl

theorem C55_rgamma_counter (shape scale : Fl) :
    Faithful (fun s : S => rgamma shape scale s) (fun s => rgamma shape scale s) :=
  Faithful.runFuel fun n => rgamma_rec_faithful n shape scale

theorem C55_rchisq_counter (dof : Fl) : Faithful (fun s : S => rchisq dof s) (fun s => rchisq dof s) := by
  by_cases h : chisq_ok dof
  · simp only [rchisq, h, not_true, if_false]; exact C55_rgamma_counter _ _
  · simp only [rchisq, h, not_false_iff, if_true]; exact fun s => ⟨0, fun m => rfl⟩

theorem C55_rinvgamma_counter (shape rate : Fl) :
    Faithful (fun s : S => rinvgamma shape rate s) (fun s => rinvgamma shape rate s) := by
  by_cases h : invgamma_ok shape rate
  · simp only [rinvgamma, h, not_true, if_false]; exact (C55_rgamma_counter _ _).map fun v => 1 / v
  · simp only [rinvgamma, h, not_false_iff, if_true]; exact fun s => ⟨0, fun m => rfl⟩

theorem C55_rbeta_counter (a b : Fl) : Faithful (fun s : S => rbeta a b s) (fun s => rbeta a b s) := by
  by_cases h : beta_ok a b
  · simp only [rbeta, h, not_true, if_false]
    exact (C55_rgamma_counter _ _).bind fun x => (C55_rgamma_counter _ _).map fun y => x / (x + y)
  · simp only [rbeta, h, not_false_iff, if_true]; exact fun s => ⟨0, fun m => rfl⟩

theorem C55_rf_counter (df1 df2 : Fl) : Faithful (fun s : S => rf df1 df2 s) (fun s => rf df1 df2 s) := by
  by_cases h : f_ok df1 df2
  · simp only [rf, h, not_true, if_false]
    exact (C55_rchisq_counter _).bind fun x => (C55_rchisq_counter _).map fun y => df2 / df1 * x / y
  · simp only [rf, h, not_false_iff, if_true]; exact fun s => ⟨0, fun m => rfl⟩

theorem C55_rt_counter (dof : Fl) : Faithful (fun s : S => rt dof s) (fun s => rt dof s) := by
  by_cases h : t_ok dof
  · simp only [rt, h, not_true, if_false]
    exact (C55_rnorm 0 1).faithful.bind fun x => (C55_rchisq_counter dof).map fun y => x / sqrt (y / dof)
  · simp only [rt, h, not_false_iff, if_true]; exact fun s => ⟨0, fun m => rfl⟩

end faithful

/-! ### how many variates -/

section cost
variable [Lib] [Ideal] {S : Type*} [MeasurableSpace S] [Engine S] {P : Measure S}

/-- `rgamma`: `ρ` bounds the number of rounds; one more variate for shapes up to 1 -/
theorem rgamma_cost (hP : FairEngine P) (hδ : Lib.next 0 1 ≤ 1 / 30) {a θ : ℝ} (ha : 0 < a) (hθ : Lib.eps ≤ θ) :
    ∃ (N : S → S) (ρ : S → ℝ≥0∞), Measurable N ∧ P.map N = P ∧ Measurable ρ ∧ ∫⁻ s, ρ s ∂P ≤ 5 / 3 ∧
      (∀ n : ℕ, P {s | n < ρ s} ≤ (2 / 5) ^ n) ∧
      ∀ᵐ s ∂P, ∃ (v : Fl) (k : ℕ), (∀ m, rgamma (fin a) (fin θ) (⟨s, m⟩ : Counting S) = some (v, ⟨N s, m + k⟩)) ∧
        (k : ℝ≥0∞) ≤ 2 * ρ s + (if 1 < a then 0 else 1) := by
  have := hP.prob
  have big : ∀ {a : ℝ}, 1 < a → ∃ (N : S → S) (ρ : S → ℝ≥0∞), Measurable N ∧ P.map N = P ∧ Measurable ρ ∧
      ∫⁻ s, ρ s ∂P ≤ 5 / 3 ∧ (∀ n : ℕ, P {s | n < ρ s} ≤ (2 / 5) ^ n) ∧
      ∀ᵐ s ∂P, ∃ (v : Fl) (k : ℕ), (∀ n m, rgamma_rec (n + 1) (fin a) (fin θ) (⟨s, m⟩ : Counting S) =
        some (v, ⟨N s, m + k⟩)) ∧ (k : ℝ≥0∞) ≤ 2 * ρ s := by
    intro a ha
    have hd : 0 < a - 1 / 3 := by linarith
    have hs : 0 < √(a - 1 / 3) := Real.sqrt_pos.2 hd
    have hc : 0 < 1 / 3 / √(a - 1 / 3) := by positivity
    have hrel : (a - 1 / 3) * (9 * (1 / 3 / √(a - 1 / 3)) ^ 2) = 1 := by
      rw [div_pow, Real.sq_sqrt hd.le]
      generalize a - 1 / 3 = d at hd
      field_simp
      norm_num
    obtain ⟨N, ρ, h1, h2, h3, h4, h5, h6⟩ := rgamma_loop_cost hP hδ ha hc hrel
    refine ⟨N, ρ, h1, h2, h3, h4, h5, h6.mono fun s hs => ?_⟩
    obtain ⟨v, k, hv, hk⟩ := hs
    refine ⟨fin (a - 1 / 3) * v * fin θ, k, fun n m => ?_, hk⟩
    rw [rgamma_rec_big ha hθ, hv m]; rfl
  by_cases h1 : 1 < a
  · obtain ⟨N, ρ, e1, e2, e3, e4, e5, e6⟩ := big h1
    refine ⟨N, ρ, e1, e2, e3, e4, e5, e6.mono fun s hs => ?_⟩
    obtain ⟨v, k, hv, hk⟩ := hs
    exact ⟨v, k, fun m => runFuel_eq (rgamma_rec_mono _ _ _) (hv 0 m), by rw [if_pos h1, add_zero]; exact hk⟩
  · obtain ⟨N, ρ, e1, e2, e3, e4, e5, e6⟩ := big (show 1 < 1 + a by linarith)
    obtain ⟨U, N0, hU, eU⟩ := true_runif hP (show Lib.next 0 1 < 1 by linarith)
    have pE : IsProbabilityMeasure (densLaw (unifPdf (Lib.next 0 1) 1)) :=
      (isCdf_unif (show Lib.next 0 1 < 1 by linarith)).isProb
    have hmap := hU.next
    refine ⟨fun s => N (N0 s), fun s => ρ (N0 s), e1.comp hU.mN, ?_, e3.comp hU.mN, ?_, fun n => ?_, ?_⟩
    · exact (Measure.map_map e1 hU.mN).symm.trans (by rw [hmap, e2])
    · rw [← lintegral_map e3 hU.mN, hmap]; exact e4
    · have : P {s | (n : ℝ≥0∞) < ρ (N0 s)} = P.map N0 {s | (n : ℝ≥0∞) < ρ s} := by
        rw [Measure.map_apply hU.mN (measurableSet_lt measurable_const e3)]; rfl
      rw [this, hmap]; exact e5 n
    · filter_upwards [hU.ae e6, eU] with s hs hu
      obtain ⟨v, k, hv, hk⟩ := hs
      refine ⟨v * fin (U s ^ (1 / a)), k + 1, fun m => runFuel_eq (rgamma_rec_mono _ _ _) (n := 2) ?_, ?_⟩
      · have hu' : runif (fin 0) (fin 1) (⟨s, m⟩ : Counting S) = (fin (U s), ⟨N0 s, m + 1⟩) := by
          have := counting_runif01 s m
          rw [zero_eq, one_eq, hu.1] at this
          exact this
        show rgamma_rec (0 + 1 + 1) _ _ _ = _
        rw [rgamma_rec_small ha (not_lt.1 h1) hθ _ hu' hu.2.1, hv 0 (m + 1), show m + 1 + k = m + (k + 1) by omega]; rfl
      · rw [if_neg h1]; push_cast; gcongr

theorem thirds_add_one (x : ℝ≥0∞) : x / 3 + 1 = (x + 3) / 3 := by
  rw [ENNReal.add_div, ENNReal.div_self (by norm_num) (by norm_num)]

/-- On average at most 10/3 variates for a shape above 1, and 13/3 for a smaller one. -/
theorem C55_rgamma (hP : FairEngine P) (hδ : Lib.next 0 1 ≤ 1 / 30) {a θ : ℝ} (ha : 0 < a) (hθ : Lib.eps ≤ θ) :
    ∫⁻ s, drawn (fun s => rgamma (fin a) (fin θ) s) s ∂P ≤ if 1 < a then 10 / 3 else 13 / 3 := by
  have := hP.prob
  obtain ⟨N, ρ, h1, h2, h3, h4, h5, h6⟩ := rgamma_cost hP hδ ha hθ
  calc ∫⁻ s, drawn (fun s => rgamma (fin a) (fin θ) s) s ∂P ≤ ∫⁻ s, (2 * ρ s + if 1 < a then 0 else 1) ∂P := by
        refine lintegral_mono_ae ?_
        filter_upwards [h6] with s hs
        obtain ⟨v, k, hv, hk⟩ := hs
        rw [drawn, hv 0]; simpa using hk
    _ ≤ 2 * (5 / 3) + if 1 < a then 0 else 1 := by
        rw [lintegral_add_right _ measurable_const, lintegral_const, measure_univ, mul_one, lintegral_const_mul _ h3]
        gcongr
    _ = _ := by
        have e : (2 : ℝ≥0∞) * (5 / 3) = 10 / 3 := by rw [← mul_div_assoc]; norm_num
        split_ifs
        · rw [add_zero, e]
        · rw [e, thirds_add_one]; norm_num

/-- More than `2n + 1` variates are needed with probability at most `(2/5)^n`, whatever the parameters. -/
theorem C55_rgamma_tail (hP : FairEngine P) (hδ : Lib.next 0 1 ≤ 1 / 30) {a θ : ℝ} (ha : 0 < a) (hθ : Lib.eps ≤ θ) (n : ℕ) :
    P {s | 2 * n + 1 < drawn (fun s => rgamma (fin a) (fin θ) s) s} ≤ (2 / 5) ^ n := by
  obtain ⟨N, ρ, h1, h2, h3, h4, h5, h6⟩ := rgamma_cost hP hδ ha hθ
  refine (measure_mono_ae ?_).trans (h5 n)
  filter_upwards [h6] with s hs hlt
  obtain ⟨v, k, hv, hk⟩ := hs
  have hlt : (2 * n + 1 : ℝ≥0∞) < drawn (fun s => rgamma (fin a) (fin θ) s) s := hlt
  rw [drawn, hv 0] at hlt
  simp only [zero_add] at hlt
  by_contra hc
  have hc : ρ s ≤ n := not_lt.1 hc
  have : (k : ℝ≥0∞) ≤ 2 * n + 1 := by
    refine hk.trans ?_
    gcongr
    split_ifs <;> simp
  exact absurd hlt (not_lt.2 this)

theorem rgamma_hasCost (hP : FairEngine P) (hδ : Lib.next 0 1 ≤ 1 / 30) {a θ : ℝ} (ha : 0 < a) (hθ : Lib.eps ≤ θ) (ι : Type*) :
    HasCost P (fun (_ : ι) s => rgamma (fin a) (fin θ) s) (13 / 3) := by
  have := hP.prob
  obtain ⟨N, ρ, h1, h2, h3, h4, h5, h6⟩ := rgamma_cost hP hδ ha hθ
  refine ⟨N, fun s => 2 * ρ s + 1, h1, h2, (h3.const_mul 2).add_const 1, ?_, h6.mono fun s hs _ => ?_⟩
  · rw [lintegral_add_right _ measurable_const, lintegral_const, measure_univ, mul_one, lintegral_const_mul _ h3]
    calc 2 * ∫⁻ s, ρ s ∂P + 1 ≤ 2 * (5 / 3) + 1 := by gcongr
      _ = 13 / 3 := by
        rw [← mul_div_assoc, thirds_add_one]; norm_num
  · obtain ⟨v, k, hv, hk⟩ := hs
    refine ⟨v, k, hv, hk.trans ?_⟩
    refine add_le_add le_rfl ?_
    split_ifs <;> simp

theorem rchisq_hasCost (hP : FairEngine P) (hδ : Lib.next 0 1 ≤ 1 / 30) {k : ℝ} (hk : 0 < k) (ι : Type*) :
    HasCost P (fun (_ : ι) s => rchisq (fin k) s) (13 / 3) := by
  refine (rgamma_hasCost hP hδ (half_pos hk) eps_le_two ι).congr fun _ s => ?_
  rw [rchisq, if_neg (by simp [chisq_ok, hk.le])]
  simp only [ideal, ifin_div _ (two_ne_zero (α := ℝ))]

theorem rnorm_hasCost (hP : FairEngine P) (ι : Type*) : HasCost P (fun (_ : ι) s => some (rnorm 0 1 s)) 1 := by
  have := hP.prob
  obtain ⟨Z, N, hZ, eZ⟩ := fair_norm hP
  refine ⟨N, fun _ => 1, hZ.mN, hZ.next, measurable_const, by simp, eZ.mono fun s hs _ => ?_⟩
  refine ⟨(rnorm 0 1 s).1, 1, fun m => ?_, by simp⟩
  show some (rnorm 0 1 _) = _
  rw [counting_rnorm01, zero_eq, one_eq, rnorm01 hs]

theorem C55_rchisq (hP : FairEngine P) (hδ : Lib.next 0 1 ≤ 1 / 30) {k : ℝ} (hk : 0 < k) :
    ∫⁻ s, drawn (fun s => rchisq (fin k) s) s ∂P ≤ 13 / 3 :=
  (rchisq_hasCost hP hδ hk Unit).drawn ()

/-- Rates above `1/eps` are rejected by `rgamma`, see `C32_rinvgamma_violated`. -/
theorem C55_rinvgamma_partial (hP : FairEngine P) (hδ : Lib.next 0 1 ≤ 1 / 30) {α β : ℝ} (ha : 0 < α) (hb0 : 0 < β)
    (hb1 : Lib.eps ≤ 1 / β) : ∫⁻ s, drawn (fun s => rinvgamma (fin α) (fin β) s) s ∂P ≤ 13 / 3 := by
  refine (((rgamma_hasCost hP hδ ha hb1 Unit).map fun _ v => 1 / v).congr
    (g'' := fun _ s => rinvgamma (fin α) (fin β) s) fun _ s => ?_).drawn ()
  rw [rinvgamma, if_neg (by simp [invgamma_ok, ha.le, hb0.le])]
  simp only [ideal, ifin_div _ hb0.ne']

theorem C55_rbeta (hP : FairEngine P) (hδ : Lib.next 0 1 ≤ 1 / 30) {a b : ℝ} (ha : 0 < a) (hb : 0 < b) :
    ∫⁻ s, drawn (fun s => rbeta (fin a) (fin b) s) s ∂P ≤ 26 / 3 := by
  have h := (rgamma_hasCost hP hδ ha eps_le_one Unit).bind
    ((rgamma_hasCost hP hδ hb eps_le_one (Unit × Fl)).map fun x y => x.2 / (x.2 + y))
  rw [← ENNReal.add_div, show (13 : ℝ≥0∞) + 13 = 26 by norm_num] at h
  refine (h.congr (g'' := fun _ s => rbeta (fin a) (fin b) s) fun _ s => ?_).drawn ()
  rw [rbeta, if_neg (by simp [beta_ok, ha.le, hb.le])]
  simp only [ideal]

theorem C55_rf (hP : FairEngine P) (hδ : Lib.next 0 1 ≤ 1 / 30) {d₁ d₂ : ℝ} (h1 : Lib.eps ≤ d₁) (h2 : Lib.eps ≤ d₂) :
    ∫⁻ s, drawn (fun s => rf (fin d₁) (fin d₂) s) s ∂P ≤ 26 / 3 := by
  have h := (rchisq_hasCost hP hδ (Lib.eps_pos.trans_le h1) Unit).bind
    ((rchisq_hasCost hP hδ (Lib.eps_pos.trans_le h2) (Unit × Fl)).map fun x y => fin d₂ / fin d₁ * x.2 / y)
  rw [← ENNReal.add_div, show (13 : ℝ≥0∞) + 13 = 26 by norm_num] at h
  refine (h.congr (g'' := fun _ s => rf (fin d₁) (fin d₂) s) fun _ s => ?_).drawn ()
  rw [rf, if_neg (by simp [f_ok, h1, h2, eps])]

theorem C55_rt (hP : FairEngine P) (hδ : Lib.next 0 1 ≤ 1 / 30) {ν : ℝ} (h : Lib.eps ≤ ν) :
    ∫⁻ s, drawn (fun s => rt (fin ν) s) s ∂P ≤ 16 / 3 := by
  have h' := (rnorm_hasCost hP Unit).bind
    ((rchisq_hasCost hP hδ (Lib.eps_pos.trans_le h) (Unit × Fl)).map fun x y => x.2 / sqrt (y / fin ν))
  rw [add_comm, thirds_add_one, show (13 : ℝ≥0∞) + 3 = 16 by norm_num] at h'
  refine (h'.congr (g'' := fun _ s => rt (fin ν) s) fun _ s => ?_).drawn ()
  rw [rt, if_neg (by simp [t_ok, h, eps])]
  rfl

/-! #### Wishart -/

theorem wish_row_hasCost (hP : FairEngine P) (i m j : ℕ) :
    HasCost P (fun (A : Grid) s => some (wish_row i m j A s)) m := by
  have := hP.prob
  induction m generalizing j with
  | zero => simpa [wish_row] using HasCost.pure (P := P) (fun A : Grid => A) hP.prob
  | succ m ih =>
    have h := (rnorm_hasCost hP Grid).bind ((ih (j + 1)).comap fun x : Grid × Fl =>
      Function.update x.1 i (Function.update (x.1 i) j x.2))
    refine (h.mono (by push_cast; rw [add_comm])).congr fun A s => ?_
    rfl

theorem wish_lower_hasCost (hP : FairEngine P) (m i : ℕ) :
    HasCost P (fun (A : Grid) s => some (wish_lower m i A s)) (∑ l ∈ Finset.range m, (i + l : ℕ)) := by
  induction m generalizing i with
  | zero => simpa [wish_lower] using HasCost.pure (P := P) (fun A : Grid => A) hP.prob
  | succ m ih =>
    have h := (wish_row_hasCost hP i i 0).bind ((ih (i + 1)).comap fun x : Grid × Grid => x.2)
    refine (h.mono (le_of_eq ?_)).congr fun A s => rfl
    rw [Finset.sum_range_succ', add_comm, add_zero]
    congr 1
    refine Finset.sum_congr rfl fun l _ => ?_
    congr 1; omega

theorem wish_diag_hasCost (hP : FairEngine P) (hδ : Lib.next 0 1 ≤ 1 / 30) {ν : ℝ} {K : ℕ} (hν : (K : ℝ) - 1 < ν)
    {nu : ℕ → Fl} (hnu : ∀ k < K, nu k = fin (ν - k)) (m i : ℕ) (him : i + m ≤ K) :
    HasCost P (fun (A : Grid) s => wish_diag nu m i A s) (m * (13 / 3)) := by
  induction m generalizing i with
  | zero => simpa [wish_diag] using HasCost.pure (P := P) (fun A : Grid => A) hP.prob
  | succ m ih =>
    have hi : 0 < ν - i := by
      have : (i : ℝ) + 1 ≤ K := by exact_mod_cast (by omega : i + 1 ≤ K)
      linarith
    have h := (rchisq_hasCost hP hδ hi Grid).bind ((ih (i + 1) (by omega)).comap fun x : Grid × Fl =>
      Function.update x.1 i (Function.update (x.1 i) i (sqrt x.2)))
    refine (h.mono (le_of_eq ?_)).congr fun A s => ?_
    · push_cast; rw [add_mul, one_mul, add_comm]
    · rw [wish_diag, hnu i (by omega)]

theorem bartlett_hasCost (hP : FairEngine P) (hδ : Lib.next 0 1 ≤ 1 / 30) {ν : ℝ} {K : ℕ} (hν : (K : ℝ) - 1 < ν)
    {nu : ℕ → Fl} (hnu : ∀ k < K, nu k = fin (ν - k)) (garbage : Grid) :
    HasCost P (fun (_ : Unit) s => bartlett K nu garbage s) ((K * (K - 1) / 2 : ℕ) + K * (13 / 3)) := by
  have h := ((wish_lower_hasCost hP (K - 1) 1).comap fun _ : Unit => zeros_blaze K K garbage).bind
    (((wish_diag_hasCost hP hδ hν hnu K 0 (by omega)).comap fun x : Unit × Grid => x.2).map
      fun _ (q : Grid) => ((fun i j => q i j : Mat K K)))
  refine (h.mono (le_of_eq ?_)).congr fun _ s => rfl
  congr 1
  rw [← Nat.cast_sum]
  congr 1
  have e : ∀ n, ∑ l ∈ Finset.range n, (1 + l) = (n + 1) * n / 2 := by
    intro n
    have := Finset.sum_range_id_mul_two (n + 1)
    rw [Finset.sum_range_succ'] at this
    simp only [add_zero, Nat.add_sub_cancel] at this
    have e2 : ∑ l ∈ Finset.range n, (1 + l) = ∑ k ∈ Finset.range n, (k + 1) := Finset.sum_congr rfl fun l _ => by omega
    omega
  rw [e]
  cases K with
  | zero => rfl
  | succ K => rfl

variable [LinAlg]

/-- A Wishart matrix takes on average at most `K(K-1)/2 + 13K/3` variates. -/
theorem C55_rwish (hP : FairEngine P) (hδ : Lib.next 0 1 ≤ 1 / 30) (be : Backend) {ν : ℝ} {K : ℕ} (hν : (K : ℝ) - 1 < ν)
    {nu : ℕ → Fl} (hnu : ∀ k < K, nu k = fin (ν - k)) (Psi : Mat K K) (pre : Bool) (garbage : Grid) :
    ∫⁻ s, drawn (fun s => rwish be Psi nu pre garbage s) s ∂P ≤ (K * (K - 1) / 2 : ℕ) + K * (13 / 3) :=
  (((bartlett_hasCost hP hδ hν hnu garbage).map fun _ (A : Mat K K) =>
    mmul (mmul (if pre then Psi else chol be Psi) A) (trans (mmul (if pre then Psi else chol be Psi) A))).congr
      fun _ _ => rfl).drawn ()

theorem C55_rinvwish (hP : FairEngine P) (hδ : Lib.next 0 1 ≤ 1 / 30) (be : Backend) {ν : ℝ} {K : ℕ} (hν : (K : ℝ) - 1 < ν)
    {nu : ℕ → Fl} (hnu : ∀ k < K, nu k = fin (ν - k)) (Psi : Mat K K) (pre : Bool) (garbage : Grid) :
    ∫⁻ s, drawn (fun s => rinvwish be Psi nu pre garbage s) s ∂P ≤ (K * (K - 1) / 2 : ℕ) + K * (13 / 3) :=
  (((bartlett_hasCost hP hδ hν hnu garbage).map fun _ (A : Mat K K) =>
    inv (mmul (mmul (if pre then Psi else chol be (inv Psi)) A)
      (trans (mmul (if pre then Psi else chol be (inv Psi)) A)))).congr fun _ _ => rfl).drawn ()

end cost

/-! ### a parameter that the checks accept and the loop never finishes -/

section hang
variable [Lib] {S : Type*} [Engine S]

theorem third_fin : ∃ r : ℝ, (1 / 3 : Fl) = fin r := by
  have h0 : (0 : EReal) ≤ Lib.rnd (1 / 3) := by rw [← rnd_zero]; exact Lib.rnd_mono (by norm_num)
  have h1 : Lib.rnd (1 / 3) ≤ (1 : EReal) := by rw [← rnd_one]; exact Lib.rnd_mono (by norm_num)
  have e : (1 / 3 : Fl) = ofE (Lib.rnd (1 / 3)) := by
    rw [one_eq, show (3 : Fl) = fin 3 from rfl]
    show (if (3 : ℝ) = 0 then _ else ofE (Lib.rnd (1 / 3))) = _
    rw [if_neg (by norm_num)]
  lift Lib.rnd (1 / 3) to ℝ using ⟨(h1.trans_lt (EReal.coe_lt_top 1)).ne, ((EReal.bot_lt_coe 0).trans_le h0).ne'⟩ with r hr
  exact ⟨r, by rw [e]; simp⟩

/-- with an infinite shape every candidate is compared to NaN -/
theorem rgamma_loop_inf (h3 : Lib.powi 1 3 = 1) (f : ℕ) (s : S) : rgamma_loop pinf (fin 0) f s = none := by
  induction f generalizing s with
  | zero => rfl
  | succ f ih =>
    have hn : ∀ x : Fl, ¬ x < nan := fun x => by cases x <;> exact id
    rw [rgamma_loop]
    split_ifs with h1
    · have key : half * (rnorm 0 1 s).1 * (rnorm 0 1 s).1 + pinf * (1 - powi (1 + fin 0 * (rnorm 0 1 s).1) 3 +
          log (powi (1 + fin 0 * (rnorm 0 1 s).1) 3)) = nan := by
        generalize (rnorm 0 1 s).1 = Z at h1 ⊢
        cases Z with
        | nan => rfl
        | ninf => exact absurd h1 (lt_ninf _)
        | pinf => 
          have e : (1 : Fl) + nan = nan := by rw [one_eq]; rfl
          rw [fin_mul_pinf, if_pos rfl, e]
          show half * pinf * pinf + pinf * (1 + nan + nan) = nan
          rw [e]
          cases half * pinf * pinf <;> rfl
        | fin z =>
          have e1 : fin 0 * fin z = fin 0 := by rw [fin_mul_fin, zero_mul]; simp
          have e2 : (1 : Fl) + fin 0 = fin 1 := by rw [one_eq, fin_add_fin, add_zero]; simp
          have e3 : powi (fin 1) 3 = fin 1 := by show ofE (Lib.powi 1 3) = _; rw [h3]; simp
          have e4 : log (fin 1) = fin 0 := by simp [log_fin, Lib.log_one]
          have e5 : (1 : Fl) - fin 1 = fin 0 := by rw [one_eq, fin_sub_fin, sub_self]; simp
          rw [e1, e2, e3, e4, e5, fin_add_fin, add_zero, rnd_zero]
          simp only [ofE_zero, pinf_mul_fin, if_true]
          cases half * fin z * fin z <;> rfl
      rw [if_neg (by rw [key]; exact hn _)]
      exact ih _
    · exact ih _

/-- **Finding.** An infinite shape passes the parameter check of `rgamma`, and then the call never returns: the acceptance
test is a comparison with NaN. (`Lib.powi 1 3 = 1` says that the library computes the cube of 1 as 1.) -/
theorem C55_rgamma_violated (h3 : Lib.powi 1 3 = 1) {θ : ℝ} (hθ : Lib.eps ≤ θ) (s : S) :
    gamma_ok pinf (fin θ) ∧ rgamma pinf (fin θ) s = none := by
  have hok : gamma_ok pinf (fin θ) := by
    simp [gamma_ok, eps, hθ]
  refine ⟨hok, runFuel_eq_none fun n => ?_⟩
  cases n with
  | zero => rfl
  | succ n =>
    obtain ⟨r, hr⟩ := third_fin
    have h1 : (pinf : Fl) > 1 := by rw [one_eq]; exact fin_lt_pinf
    rw [rgamma_rec, if_neg (not_not.2 hok), if_pos h1, hr, pinf_sub_fin]
    show (runFuel fun k => rgamma_loop pinf (fin 0) k s).map _ = none
    rw [runFuel_eq_none fun k => rgamma_loop_inf h3 k s]; rfl

theorem C55_rchisq_violated (h3 : Lib.powi 1 3 = 1) (s : S) : chisq_ok pinf ∧ rchisq pinf s = none := by
  have hok : chisq_ok pinf := by simp [chisq_ok]
  refine ⟨hok, ?_⟩
  rw [rchisq, if_neg (not_not.2 hok), show (2 : Fl) = fin 2 from rfl, pinf_div_fin, if_pos (by norm_num)]
  exact (C55_rgamma_violated h3 (Lib.eps_le.trans (by norm_num)) s).2

/-- The densities, distribution functions and quantiles of Student's t treat infinite degrees of freedom; its generator
hangs. -/
theorem C55_rt_violated (h3 : Lib.powi 1 3 = 1) (s : S) : t_ok pinf ∧ rt pinf s = none := by
  have hok : t_ok pinf := by simp [t_ok, eps]
  exact ⟨hok, by rw [rt, if_neg (not_not.2 hok)]; simp only [(C55_rchisq_violated h3 _).2]; rfl⟩

theorem C55_rf_violated (h3 : Lib.powi 1 3 = 1) {d : ℝ} (hd : Lib.eps ≤ d) (s : S) :
    f_ok pinf (fin d) ∧ rf pinf (fin d) s = none := by
  have hok : f_ok pinf (fin d) := by simp [f_ok, eps, hd]
  exact ⟨hok, by rw [rf, if_neg (not_not.2 hok), (C55_rchisq_violated h3 _).2]; rfl⟩

theorem C55_rbeta_violated (h3 : Lib.powi 1 3 = 1) {b : ℝ} (hb : 0 ≤ b) (s : S) :
    beta_ok pinf (fin b) ∧ rbeta pinf (fin b) s = none := by
  have hok : beta_ok pinf (fin b) := by simp [beta_ok, hb]
  refine ⟨hok, ?_⟩
  rw [rbeta, if_neg (not_not.2 hok), one_eq, (C55_rgamma_violated h3 (Lib.eps_le.trans (by norm_num)) s).2]; rfl

end hang

end Stats

namespace Stats.ExamplesC55B
open Fl Spec MatOps Matrix Stats.Vec MeasureTheory
open scoped Stats.Low ENNReal
attribute [local instance] Exact.linAlg Exact.idealLin

/-- shape 5/2: at most 10/3 variates on average -/
example : ∫⁻ s, drawn (fun s => rgamma (fin (5 / 2)) (fin 3) s) s ∂Tape.tapeLaw ≤ 10 / 3 := by
  have := C55_rgamma (a := 5 / 2) (θ := 3) Tape.fair Low.next_le (by norm_num) (Low.eps_le (by norm_num))
  rwa [if_pos (by norm_num)] at this

/-- shape 1/2: one more -/
example : ∫⁻ s, drawn (fun s => rgamma (fin (1 / 2)) (fin 3) s) s ∂Tape.tapeLaw ≤ 13 / 3 := by
  have := C55_rgamma (a := 1 / 2) (θ := 3) Tape.fair Low.next_le (by norm_num) (Low.eps_le (by norm_num))
  rwa [if_neg (by norm_num)] at this

/-- more than 201 variates: probability below 10⁻³⁹ -/
example : Tape.tapeLaw {s | 2 * (100 : ℕ) + 1 < drawn (fun s => rgamma (fin (1 / 2)) (fin 3) s) s} ≤ (2 / 5) ^ 100 :=
  C55_rgamma_tail Tape.fair Low.next_le (by norm_num) (Low.eps_le (by norm_num)) 100

example : ∫⁻ s, drawn (fun s => rchisq (fin 3) s) s ∂Tape.tapeLaw ≤ 13 / 3 :=
  C55_rchisq Tape.fair Low.next_le (by norm_num)

example : ∫⁻ s, drawn (fun s => rinvgamma (fin 2) (fin 3) s) s ∂Tape.tapeLaw ≤ 13 / 3 :=
  C55_rinvgamma_partial Tape.fair Low.next_le (by norm_num) (by norm_num) (Low.eps_le (by norm_num))

example : ∫⁻ s, drawn (fun s => rbeta (fin 2) (fin (1 / 3)) s) s ∂Tape.tapeLaw ≤ 26 / 3 :=
  C55_rbeta Tape.fair Low.next_le (by norm_num) (by norm_num)

example : ∫⁻ s, drawn (fun s => rf (fin 2) (fin 7) s) s ∂Tape.tapeLaw ≤ 26 / 3 :=
  C55_rf Tape.fair Low.next_le (Low.eps_le (by norm_num)) (Low.eps_le (by norm_num))

example : ∫⁻ s, drawn (fun s => rt (fin 7) s) s ∂Tape.tapeLaw ≤ 16 / 3 :=
  C55_rt Tape.fair Low.next_le (Low.eps_le (by norm_num))

/-- a 3 × 3 Wishart matrix: at most 16 variates on average, whatever the scale matrix -/
example (Psi : Mat 3 3) (g : Grid) :
    ∫⁻ s, drawn (fun s => rwish .eigen Psi (nuFloat (fin 2.5)) false g s) s ∂Tape.tapeLaw ≤ (3 : ℕ) + (3 : ℕ) * (13 / 3) :=
  C55_rwish Tape.fair Low.next_le .eigen (by norm_num) (nuFloat_eq 2.5) Psi false g

example (Psi : Mat 3 3) (g : Grid) :
    ∫⁻ s, drawn (fun s => rinvwish .arma Psi (nuInt 7) false g s) s ∂Tape.tapeLaw ≤ (3 : ℕ) + (3 : ℕ) * (13 / 3) :=
  C55_rinvwish Tape.fair Low.next_le .arma (ν := 7) (by norm_num) (by simpa using nuInt_eq (n := 7) (K := 3) (by norm_num) (by norm_num)) Psi false g

theorem cube : Lib.powi 1 3 = 1 := by
  have := Ideal.powi 1 3
  simpa using this

example (s : Tape) : rgamma pinf (fin 1) s = none := (C55_rgamma_violated cube (Low.eps_le (by norm_num)) s).2
example (s : Tape) : rchisq pinf s = none := (C55_rchisq_violated cube s).2
example (s : Tape) : rt pinf s = none := (C55_rt_violated cube s).2
example (s : Tape) : rf pinf (fin 3) s = none := (C55_rf_violated cube (Low.eps_le (by norm_num)) s).2
example (s : Tape) : rbeta pinf (fin 3) s = none := (C55_rbeta_violated cube (by norm_num) s).2

end Stats.ExamplesC55B

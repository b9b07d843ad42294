import Verif.Lemmas.Near
import Verif.Props.C29
import Verif.Props.C33

/-!
# C50: the laws of the generators with the true end of the uniform interval

`runif(0,1)` draws from `[nextafter(0,1), 1)`, not from `[0, 1)`. C29 to C33 idealise `nextafter(0,1)` to 0. Here it is
any number `δ` with `0 ≤ δ < 1`. The laws are then not exactly the named ones, but close: the probability of no event
is off by more than a small multiple of `δ` (for binary64 `δ = 2^-1074`). For `δ = 0` these theorems are those of
C29 to C33.
-/

set_option linter.unusedSectionVars false
open Classical
open MeasureTheory Set
open scoped ENNReal

namespace Stats
open Fl Spec
variable [Lib] [Ideal] {S : Type*} [MeasurableSpace S] [Engine S] {P : Measure S}

omit [Ideal] in
theorem delta_nonneg : 0 ≤ Lib.next 0 1 := Lib.next_ge 0 1 one_pos

omit [Ideal] in
/-- `runif(0,1)` -/
theorem true_runif (hP : FairEngine P) (hδ : Lib.next 0 1 < 1) :
    ∃ U N, Draw P U N (densLaw (unifPdf (Lib.next 0 1) 1)) ∧
      ∀ᵐ s ∂P, runif (fin 0) (fin 1) s = (fin (U s), N s) ∧ 0 < U s ∧ U s < 1 := by
  have := hP.prob
  obtain ⟨U, N, hd, h⟩ := hasLaw_iff.1 (hP.unif _ 1 hδ)
  refine ⟨U, N, hd, ?_⟩
  have h2 := hd.ae_val (p := fun u => 0 < u ∧ u < 1) (by
    rw [densLaw_unif hδ]
    refine Measure.ae_smul_measure ?_ _
    filter_upwards [ae_restrict_mem measurableSet_Ioo] with u hu using ⟨delta_nonneg.trans_lt hu.1, hu.2⟩)
  filter_upwards [h, h2] with s hs hu
  refine ⟨?_, hu.1, hu.2⟩
  rw [runif, if_neg (by simp [unif_ok]), nextafter]
  exact Option.some.inj hs

omit [Ideal] in
theorem near_runif (hP : FairEngine P) (hδ : Lib.next 0 1 < 1) :
    ∃ U N, NearDraw P U N (volume.restrict (Ioo (0 : ℝ) 1)) (ENNReal.ofReal (Lib.next 0 1)) ∧
      ∀ᵐ s ∂P, runif (fin 0) (fin 1) s = (fin (U s), N s) ∧ 0 < U s ∧ U s < 1 := by
  obtain ⟨U, N, hd, h⟩ := true_runif hP hδ
  exact ⟨U, N, ⟨_, (isCdf_unif hδ).isProb, hd, near_unif delta_nonneg hδ⟩, h⟩

/-- `runif(a,b)` is off by the part of the interval that `nextafter` cuts off. -/
theorem C50_runif (hP : FairEngine P) {a b : ℝ} (h : Lib.next a b < b) (hab : a < b) :
    NearLaw P (fun s => some (runif (fin a) (fin b) s)) (densLaw (unifPdf a b)) ((Lib.next a b - a) / (b - a)) := by
  have hba : 0 < b - a := by linarith
  have h0 : 0 ≤ (Lib.next a b - a) / (b - a) := div_nonneg (by linarith [Lib.next_ge a b hab]) hba.le
  have h1 : (Lib.next a b - a) / (b - a) < 1 := by rw [div_lt_one hba]; linarith
  obtain ⟨U, N, hd, e⟩ := hasLaw_iff.1 (C29_runif hP h hab)
  refine NearDraw.nearLaw h0 ⟨_, (isCdf_unif h).isProb, hd, ?_⟩ e
  have hm : Measurable fun u : ℝ => a + (b - a) * Tape.clamp u := by have := Tape.measurable_clamp; fun_prop
  have k := (near_unif h0 h1).map hm
  rw [Tape.unif_law hab] at k
  convert k using 1
  generalize Lib.next a b = c at *
  rw [← Tape.unif_law h, ← Tape.unif_law h1, Measure.map_map hm (by have := Tape.measurable_clamp; fun_prop)]
  refine Measure.map_congr ?_
  filter_upwards [ae_restrict_mem measurableSet_Ioo] with u hu
  have hw : (c - a) / (b - a) + (1 - (c - a) / (b - a)) * u ∈ Ioo (0 : ℝ) 1 := by
    have := hu.1; have := hu.2
    constructor <;> nlinarith
  simp only [Function.comp, Tape.clamp, if_pos hu]
  rw [if_pos hw]
  field_simp
  ring

omit [Ideal] in
/-- inverse-transform generators -/
theorem near_inversion (hP : FairEngine P) (hδ : Lib.next 0 1 < 1) {F f : ℝ → ℝ} (hF : IsCdf F f) {q : Fl → Fl}
    (hq : IsInv q F) {g : S → Fl × S}
    (hg : ∀ s, g s = (q (runif (fin 0) (fin 1) s).1, (runif (fin 0) (fin 1) s).2)) :
    NearLaw P (fun s => some (g s)) (densLaw f) (Lib.next 0 1) := by
  have := hP.prob
  obtain ⟨U, N, hd, h⟩ := near_runif hP hδ
  obtain ⟨X, hm, hX, hl⟩ := IsInv.measurable hF hq
  have hd := hd.map hm
  rw [hl] at hd
  refine hd.nearLaw delta_nonneg ?_
  filter_upwards [h] with s hs
  rw [hg, hs.1, hX _ hs.2.1 hs.2.2]

theorem C50_rexp (hP : FairEngine P) (hδ : Lib.next 0 1 < 1) {rate : ℝ} (h : 0 < rate) :
    NearLaw P (fun s => some (rexp (fin rate) s)) (densLaw (expPdf rate)) (Lib.next 0 1) :=
  near_inversion hP hδ (isCdf_exp h) (qexp_inv h) fun s => by
    rw [rexp, if_neg (by simp [exp_ok, h.le]), zero_eq, one_eq]

theorem C50_rcauchy (hP : FairEngine P) (hδ : Lib.next 0 1 < 1) (mu : ℝ) {sigma : ℝ} (h : 0 < sigma) :
    NearLaw P (fun s => some (rcauchy (fin mu) (fin sigma) s)) (densLaw (cauchyPdf mu sigma)) (Lib.next 0 1) :=
  near_inversion hP hδ (isCdf_cauchy mu h) (qcauchy_inv mu h) fun s => by
    rw [rcauchy, if_neg (by simp [cauchy_ok, h.le]), zero_eq, one_eq]

theorem C50_rlaplace (hP : FairEngine P) (hδ : Lib.next 0 1 < 1) (mu : ℝ) {sigma : ℝ} (h : 0 < sigma) :
    NearLaw P (fun s => some (rlaplace (fin mu) (fin sigma) s)) (densLaw (laplacePdf mu sigma)) (Lib.next 0 1) :=
  near_inversion hP hδ (isCdf_laplace mu h) (qlaplace_inv mu h) fun s => by
    rw [rlaplace, if_neg (by simp [laplace_ok, h.le]), zero_eq, one_eq]

theorem C50_rlogis (hP : FairEngine P) (hδ : Lib.next 0 1 < 1) (mu : ℝ) {sigma : ℝ} (h : 0 < sigma) :
    NearLaw P (fun s => some (rlogis (fin mu) (fin sigma) s)) (densLaw (logisPdf mu sigma)) (Lib.next 0 1) :=
  near_inversion hP hδ (isCdf_logis mu h) (qlogis_inv mu h) fun s => by
    rw [rlogis, if_neg (by simp [logis_ok, h.le]), zero_eq, one_eq]

theorem C50_rweibull (hP : FairEngine P) (hδ : Lib.next 0 1 < 1) {k θ : ℝ} (hk : Lib.eps ≤ k) (hθ : Lib.eps ≤ θ) :
    NearLaw P (fun s => some (rweibull (fin k) (fin θ) s)) (densLaw (weibullPdf k θ)) (Lib.next 0 1) :=
  near_inversion hP hδ (isCdf_weibull (Lib.eps_pos.trans_le hk) (Lib.eps_pos.trans_le hθ)) (qweibull_inv hk hθ)
    fun s => by rw [rweibull, if_neg (by simp [weibull_ok, eps, hk, hθ]), zero_eq, one_eq]

/-! ### counts -/

theorem near_rbern (hP : FairEngine P) (hδ : Lib.next 0 1 < 1) {p : ℝ} (h0 : 0 ≤ p) (h1 : p ≤ 1) :
    ∃ K N, NearDraw P K N (massZ (bernPmf p)) (ENNReal.ofReal (Lib.next 0 1)) ∧
      ∀ᵐ s ∂P, rbern (fin p) s = (fin (K s : ℤ), N s) := by
  have := hP.prob
  obtain ⟨U, N, hd, h⟩ := near_runif hP hδ
  have hd' := hd.map (f := fun u => if u ≤ p then (1 : ℤ) else 0)
    (Measurable.ite measurableSet_Iic measurable_const measurable_const)
  rw [map_threshold h0 h1, ← massZ_bern] at hd'
  refine ⟨_, N, hd', ?_⟩
  filter_upwards [h] with s hs
  rw [rbern, if_neg (by simp [bern_ok, h0, h1]), zero_eq, one_eq]
  simp only [hs.1, fin_le_fin]
  split_ifs <;> simp

theorem C50_rbern (hP : FairEngine P) (hδ : Lib.next 0 1 < 1) {p : ℝ} (h0 : 0 ≤ p) (h1 : p ≤ 1) :
    NearLaw P (fun s => some (rbern (fin p) s)) (massLaw (bernPmf p)) (Lib.next 0 1) := by
  have := hP.prob
  obtain ⟨K, N, hd, h⟩ := near_rbern hP hδ h0 h1
  rw [← massZ_map]
  exact (hd.map (measurable_of_countable _)).nearLaw delta_nonneg (h.mono fun s hs => by rw [hs])

theorem C50_rradem (hP : FairEngine P) (hδ : Lib.next 0 1 < 1) {p : ℝ} (h0 : 0 ≤ p) (h1 : p ≤ 1) :
    NearLaw P (fun s => some (rradem (fin p) s)) (massLaw (rademPmf p)) (Lib.next 0 1) := by
  have := hP.prob
  obtain ⟨U, N, hd, h⟩ := near_runif hP hδ
  have hd' := hd.map (f := fun u => if u ≤ p then (1 : ℤ) else -1)
    (Measurable.ite measurableSet_Iic measurable_const measurable_const)
  rw [map_threshold h0 h1, ← massZ_radem] at hd'
  rw [← massZ_map]
  refine (hd'.map (measurable_of_countable _)).nearLaw delta_nonneg ?_
  filter_upwards [h] with s hs
  rw [rradem, if_neg (by simp [radem_ok, h0, h1]), zero_eq, one_eq]
  simp only [hs.1, fin_le_fin]
  split_ifs <;> simp

omit [Ideal] [Lib] in
theorem massZ_bern_prob {p : ℝ} (h0 : 0 ≤ p) (h1 : p ≤ 1) : IsProbabilityMeasure (massZ (bernPmf p)) := by
  rw [massZ_bern, ← map_threshold h0 h1]
  exact Measure.isProbabilityMeasure_map
    (Measurable.ite measurableSet_Iic measurable_const measurable_const).aemeasurable

omit [Ideal] [Lib] in
theorem massZ_binom_prob {p : ℝ} (h0 : 0 ≤ p) (h1 : p ≤ 1) (n : ℕ) : IsProbabilityMeasure (massZ (binomPmf n p)) := by
  induction n with
  | zero => rw [massZ_binom_zero]; infer_instance
  | succ n ih =>
    have := massZ_bern_prob h0 h1
    rw [← massZ_binom_succ h0 h1]
    exact Measure.isProbabilityMeasure_map (measurable_of_countable _).aemeasurable

theorem near_rbinom (hP : FairEngine P) (hδ : Lib.next 0 1 < 1) {p : ℝ} (h0 : 0 ≤ p) (h1 : p ≤ 1) (n : ℕ) :
    ∃ K N, NearDraw P K N (massZ (binomPmf n p)) (ENNReal.ofReal (n * Lib.next 0 1)) ∧
      ∀ᵐ s ∂P, ∀ m : ℝ, rbinom_loop (fin p) n (fin m) s = (fin (m + (K s : ℤ)), N s) := by
  have := hP.prob
  induction n with
  | zero =>
    have hd : Draw P (fun _ => (0 : ℤ)) id (massZ (binomPmf 0 p)) := ⟨measurable_const, measurable_id, by
      rw [massZ_binom_zero, Measure.dirac_prod]; rfl⟩
    have := massZ_binom_prob h0 h1 0
    refine ⟨fun _ => 0, id, by simpa using hd.near, .of_forall fun s m => ?_⟩
    simp [rbinom_loop]
  | succ n ih =>
    obtain ⟨K, N, hd, h⟩ := ih
    obtain ⟨B, M, hb, h'⟩ := near_rbern hP hδ h0 h1
    have := massZ_bern_prob h0 h1
    have := massZ_binom_prob h0 h1 n
    have hd' := (hb.comp hd).map (f := fun x : ℤ × ℤ => x.1 + x.2) (measurable_of_countable _)
    rw [massZ_binom_succ h0 h1, ← ENNReal.ofReal_add delta_nonneg (mul_nonneg n.cast_nonneg delta_nonneg)] at hd'
    refine ⟨_, _, hd'.mono (ENNReal.ofReal_le_ofReal (by push_cast; linarith)), ?_⟩
    filter_upwards [h', hb.ae h] with s hs hs' m
    rw [rbinom_loop]
    simp only [hs, ideal]
    rw [hs' _]
    push_cast
    rw [add_assoc]

theorem C50_rbinom (hP : FairEngine P) (hδ : Lib.next 0 1 < 1) {p : ℝ} (h0 : 0 ≤ p) (h1 : p ≤ 1) (n : ℕ) :
    NearLaw P (fun s => some (rbinom n (fin p) s)) (massLaw (binomPmf n p)) (n * Lib.next 0 1) := by
  have := hP.prob
  obtain ⟨K, N, hd, h⟩ := near_rbinom hP hδ h0 h1 n
  rw [← massZ_map]
  refine (hd.map (measurable_of_countable _)).nearLaw (mul_nonneg n.cast_nonneg delta_nonneg) ?_
  filter_upwards [h] with s hs
  rw [rbinom, if_neg (by simp [binom_ok, h0, h1]), zero_eq, Int.toNat_natCast, hs 0, zero_add]

theorem C50_rpois (hP : FairEngine P) (hδ : Lib.next 0 1 < 1) {rate : ℝ} (hr : Lib.eps ≤ rate) :
    NearLaw P (rpois (fin rate)) (massLaw (poisPmf rate)) (Lib.next 0 1) := by
  have := hP.prob
  have hr0 : 0 ≤ rate := Lib.eps_pos.le.trans hr
  obtain ⟨U, N, hd, h⟩ := near_runif hP hδ
  obtain ⟨K, hKm, hK, hlaw⟩ := qpois_measurable hr
  have hd' := hd.map hKm
  rw [hlaw] at hd'
  rw [← massZ_map]
  refine (hd'.map (measurable_of_countable _)).nearLaw delta_nonneg ?_
  filter_upwards [h] with s hs
  rw [rpois, if_neg (by simp [pois_ok, hr0]), zero_eq, one_eq]
  simp only [hs.1]
  rw [hK (U s) hs.2.1 hs.2.2]
  rfl

/-- Below `eps` the Poisson generator returns 0, as its quantile does (see `C16_qpois_violated`). -/
theorem rpois_small (hP : FairEngine P) (hδ : Lib.next 0 1 < 1) {rate : ℝ} (h0 : 0 ≤ rate) (hr : rate < Lib.eps) :
    HasLaw P (rpois (fin rate)) (Measure.dirac 0) := by
  have := hP.prob
  obtain ⟨U, N, ⟨D', _, hd, -⟩, h⟩ := near_runif hP hδ
  have hd' := hd.map (f := fun _ => (0 : ℝ)) measurable_const
  rw [Measure.map_const, measure_univ, one_smul] at hd'
  refine hasLaw_iff.2 ⟨_, N, hd', ?_⟩
  filter_upwards [h] with s hs
  rw [rpois, if_neg (by simp [pois_ok, h0]), zero_eq, one_eq]
  simp only [hs.1]
  have e : qpois (fin (U s)) (fin rate) = some 0 := by
    rw [qpois, if_neg (by simp [pois_ok, h0]), if_neg (by simp [prob_val_ok, hs.2.1.le, hs.2.2.le])]
    split_ifs with h1 h2
    · rfl
    · rfl
    · exact absurd hr (by simpa [eps] using h2)
    · exact absurd hr (by simpa [eps] using h2)
    · exact absurd hr (by simpa [eps] using h2)
  rw [e, zero_eq]
  rfl

theorem massLaw_zero {p : ℤ → ℝ} {A : Set ℝ} (hA : (0 : ℝ) ∈ A) : ENNReal.ofReal (p 0) ≤ massLaw p A := by
  rw [massLaw]
  refine le_trans ?_ (Measure.le_sum_apply _ _)
  refine le_trans ?_ (ENNReal.le_tsum (0 : ℤ))
  simp [hA]

theorem massLaw_pois_prob {rate : ℝ} (h : 0 ≤ rate) : IsProbabilityMeasure (massLaw (poisPmf rate)) := by
  refine ⟨?_⟩
  rw [massLaw, Measure.sum_apply _ MeasurableSet.univ]
  simp only [Measure.smul_apply, measure_univ, smul_eq_mul, mul_one]
  rw [← ENNReal.ofReal_tsum_of_nonneg (poisPmf_nonneg h) (hasSum_pois rate).summable, (hasSum_pois rate).tsum_eq,
    ENNReal.ofReal_one]

/-- The law is then not the Poisson law, which gives other counts a positive probability ... -/
theorem C50_rpois_violated (hP : FairEngine P) (hδ : Lib.next 0 1 < 1) {rate : ℝ} (h0 : 0 < rate) (hr : rate < Lib.eps) :
    ¬ HasLaw P (rpois (fin rate)) (massLaw (poisPmf rate)) := by
  have := hP.prob
  intro h
  obtain ⟨X, N, hX, e⟩ := hasLaw_iff.1 h
  obtain ⟨X', N', hX', e'⟩ := hasLaw_iff.1 (rpois_small hP hδ h0.le hr)
  have hx : X =ᵐ[P] X' := by
    filter_upwards [e, e'] with s a b
    rw [a] at b
    simpa using congrArg (fun o : Option (Fl × S) => o.map fun p => toR p.1) b
  have h1 := hX.fst
  rw [Measure.map_congr hx, hX'.fst] at h1
  have h2 : massLaw (poisPmf rate) {1} = 0 := by rw [← h1]; simp
  rw [massLaw, Measure.sum_apply _ (measurableSet_singleton _), ENNReal.tsum_eq_zero] at h2
  have h3 := h2 1
  have : 0 < poisPmf rate 1 := by
    have := poisPmf_nat rate 1
    norm_num at this
    rw [this]
    positivity
  simp [this] at h3
  linarith

/-- ... but it differs from it by at most the rate. -/
theorem C50_rpois_small (hP : FairEngine P) (hδ : Lib.next 0 1 < 1) {rate : ℝ} (h0 : 0 ≤ rate) (hr : rate < Lib.eps) :
    NearLaw P (rpois (fin rate)) (massLaw (poisPmf rate)) rate := by
  have hp := massLaw_pois_prob h0
  refine ⟨_, inferInstance, rpois_small hP hδ h0 hr, fun A hA => ?_⟩
  have key : ∀ B : Set ℝ, MeasurableSet B → (0 : ℝ) ∈ B → 1 - rate ≤ (massLaw (poisPmf rate)).real B := by
    intro B hB hz
    have h1 := massLaw_zero (p := poisPmf rate) hz
    have h2 : poisPmf rate 0 = Real.exp (-rate) := by simpa using poisPmf_nat rate 0
    rw [h2] at h1
    have h3 := ENNReal.toReal_mono (measure_ne_top _ _) h1
    rw [ENNReal.toReal_ofReal (Real.exp_pos _).le] at h3
    exact le_trans (by linarith [Real.add_one_le_exp (-rate)]) h3
  by_cases hz : (0 : ℝ) ∈ A
  · have h1 : (Measure.dirac (0 : ℝ)).real A = 1 := by simp [Measure.real, hz]
    have h2 : (massLaw (poisPmf rate)).real A ≤ 1 := measureReal_le_one
    rw [h1, abs_le]
    exact ⟨by linarith, by linarith [key A hA hz]⟩
  · have h1 : (Measure.dirac (0 : ℝ)).real A = 0 := by simp [Measure.real, hA, hz]
    have h2 : 0 ≤ (massLaw (poisPmf rate)).real A := measureReal_nonneg
    have h3 := key Aᶜ hA.compl hz
    rw [probReal_compl_eq_one_sub hA] at h3
    rw [h1, abs_le]
    exact ⟨by linarith, by linarith⟩

/-- every rate -/
theorem C50_rpois_all (hP : FairEngine P) (hδ : Lib.next 0 1 < 1) {rate : ℝ} (h0 : 0 ≤ rate) :
    NearLaw P (rpois (fin rate)) (massLaw (poisPmf rate)) (Max.max (Lib.next 0 1) Lib.eps) := by
  rcases le_or_gt Lib.eps rate with h | h
  · obtain ⟨D', a, b, c⟩ := C50_rpois hP hδ h
    exact ⟨D', a, b, fun A hA => (c A hA).trans (le_max_left _ _)⟩
  · obtain ⟨D', a, b, c⟩ := C50_rpois_small hP hδ h0 h
    exact ⟨D', a, b, fun A hA => (c A hA).trans (h.le.trans (le_max_right _ _))⟩


/-! ### gamma -/

/-- the loop of `rgamma`: a round is accepted with probability at least 1/6, which bounds the effect of the cut -/
theorem near_rgamma_big (hP : FairEngine P) (hδ : Lib.next 0 1 ≤ 1 / 30) {a θ : ℝ} (ha : 1 < a) (hθ : Lib.eps ≤ θ) :
    ∃ X N, NearDraw P X N (densLaw (gammaPdf a θ)) (ENNReal.ofReal (6 * Lib.next 0 1)) ∧
      ∀ᵐ s ∂P, ∀ n, rgamma_rec (n + 1) (fin a) (fin θ) s = some (fin (X s), N s) := by
  have := hP.prob
  have hδ1 : Lib.next 0 1 < 1 := by linarith
  have hθ0 : 0 < θ := Lib.eps_pos.trans_le hθ
  have hd : 0 < a - 1 / 3 := by linarith
  have hs : 0 < √(a - 1 / 3) := Real.sqrt_pos.2 hd
  have hc : 0 < 1 / 3 / √(a - 1 / 3) := by positivity
  have hrel : (a - 1 / 3) * (9 * (1 / 3 / √(a - 1 / 3)) ^ 2) = 1 := by
    rw [div_pow, Real.sq_sqrt hd.le]
    generalize a - 1 / 3 = d at hd
    field_simp
    norm_num
  set c := 1 / 3 / √(a - 1 / 3)
  set d := a - 1 / 3 with hdd
  obtain ⟨U, N2, hU, eU⟩ := true_runif hP hδ1
  have pE : IsProbabilityMeasure (densLaw (unifPdf (Lib.next 0 1) 1)) := (isCdf_unif hδ1).isProb
  set E := densLaw (unifPdf (Lib.next 0 1) 1) with hE
  have hT : Measurable fun p : ℝ × ℝ => (1 + c * p.1) ^ 3 := by fun_prop
  -- the accepted rounds
  have hJ : Near ((densLaw (normPdf 0 1)).prod E) ((densLaw (normPdf 0 1)).prod (volume.restrict (Ioo (0 : ℝ) 1)))
      (ENNReal.ofReal (Lib.next 0 1)) := by
    have := (Near.refl (densLaw (normPdf 0 1))).prod (near_unif delta_nonneg hδ1)
    rwa [zero_add] at this
  have univ_eq : ∀ F : Measure ℝ, gammaSubOf F d c univ = (densLaw (normPdf 0 1)).prod F (gammaAcc d c) := fun F => by
    rw [gammaSubOf, Measure.map_apply hT MeasurableSet.univ, preimage_univ, Measure.restrict_apply_univ]
  have hge : ENNReal.ofReal (1 / 5) ≤ (densLaw (normPdf 0 1)).prod (volume.restrict (Ioo (0 : ℝ) 1)) (gammaAcc d c) := by
    rw [← univ_eq]; exact gammaSub_univ_ge ha hc hrel
  have hacc : 1 / 6 ≤ ((densLaw (normPdf 0 1)).prod E).real (gammaAcc d c) := by
    have h2 := hge.trans (hJ.ge _ (measurableSet_gammaAcc d c))
    have h3 := ENNReal.toReal_mono (by finiteness) h2
    rw [ENNReal.toReal_add (by finiteness) (by finiteness), ENNReal.toReal_ofReal delta_nonneg,
      ENNReal.toReal_ofReal (by norm_num)] at h3
    rw [measureReal_def]; linarith
  have hne0 : (densLaw (normPdf 0 1)).prod (volume.restrict (Ioo (0 : ℝ) 1)) (gammaAcc d c) ≠ 0 := by
    intro h0; rw [h0] at hge; simp at hge
  have hne : gammaSubOf E d c univ ≠ 0 := by
    rw [univ_eq]; intro h0
    rw [measureReal_def, h0] at hacc; simp at hacc; linarith
  obtain ⟨X, N, hX, h⟩ := rgamma_loop_draw_of hP hU eU hc hne
  have hnear := ((hJ.cond delta_nonneg (measurableSet_gammaAcc d c) (by norm_num) hacc hne0).map hT)
  rw [Measure.map_smul, Measure.map_smul] at hnear
  have hsf : SFinite ((gammaSubOf E d c univ)⁻¹ • gammaSubOf E d c) := by
    have : SFinite (gammaSubOf E d c) := by rw [gammaSubOf]; infer_instance
    infer_instance
  have hXn : NearDraw P X N ((gammaSub d c univ)⁻¹ • gammaSub d c) (ENNReal.ofReal (6 * Lib.next 0 1)) := by
    refine ⟨_, hX.isProb, hX, ?_⟩
    rw [univ_eq, show gammaSub d c univ = _ from univ_eq _]
    refine hnear.mono (ENNReal.ofReal_le_ofReal (by linarith))
  have hW : Measurable fun v : ℝ => d * v * θ := by fun_prop
  refine ⟨_, N, gammaSub_law ha hθ0 hc hrel ▸ hXn.map hW, ?_⟩
  filter_upwards [h] with s hs n
  rw [rgamma_rec_big ha hθ, hs]
  simp only [Option.map_some, ideal]
  rfl

theorem near_rgamma (hP : FairEngine P) (hδ : Lib.next 0 1 ≤ 1 / 30) {a θ : ℝ} (ha : 0 < a) (hθ : Lib.eps ≤ θ) :
    ∃ X N, NearDraw P X N (densLaw (gammaPdf a θ)) (ENNReal.ofReal (7 * Lib.next 0 1)) ∧
      ∀ᵐ s ∂P, rgamma (fin a) (fin θ) s = some (fin (X s), N s) := by
  have := hP.prob
  have hθ0 : 0 < θ := Lib.eps_pos.trans_le hθ
  have d0 : 0 ≤ Lib.next 0 1 := delta_nonneg
  by_cases h1 : 1 < a
  · obtain ⟨X, N, hX, h⟩ := near_rgamma_big hP hδ h1 hθ
    refine ⟨X, N, hX.mono (ENNReal.ofReal_le_ofReal (by linarith)),
      h.mono fun s hs => runFuel_eq (rgamma_rec_mono _ _ s) (hs 0)⟩
  · have h1 : a ≤ 1 := not_lt.1 h1
    obtain ⟨X, N, hX, h⟩ := near_rgamma_big hP hδ (show 1 < 1 + a by linarith) hθ
    obtain ⟨U, N0, hU, eU⟩ := near_runif hP (by linarith)
    have hm : Measurable fun p : ℝ × ℝ => p.2 * p.1 ^ (1 / a) := by fun_prop
    have := isCdf_gamma_prob (show 0 < 1 + a by linarith) hθ0
    have hB := (hU.comp hX).map hm
    rw [gamma_boost ha hθ0, ← ENNReal.ofReal_add d0 (by linarith)] at hB
    refine ⟨_, _, hB.mono (ENNReal.ofReal_le_ofReal (by linarith)), ?_⟩
    filter_upwards [hU.ae h, eU] with s hs hu
    refine runFuel_eq (rgamma_rec_mono _ _ s) (n := 2) ?_
    show rgamma_rec (0 + 1 + 1) _ _ s = _
    rw [rgamma_rec_small ha h1 hθ _ hu.1 hu.2.1, hs 0]
    simp only [Option.map_some, ideal]

theorem C50_rgamma (hP : FairEngine P) (hδ : Lib.next 0 1 ≤ 1 / 30) {a θ : ℝ} (ha : 0 < a) (hθ : Lib.eps ≤ θ) :
    NearLaw P (rgamma (fin a) (fin θ)) (densLaw (gammaPdf a θ)) (7 * Lib.next 0 1) := by
  obtain ⟨X, N, hX, h⟩ := near_rgamma hP hδ ha hθ
  exact hX.nearLaw (by linarith [delta_nonneg]) h

/-! ### generators built on normal and gamma variates -/

theorem near_rchisq (hP : FairEngine P) (hδ : Lib.next 0 1 ≤ 1 / 30) {k : ℝ} (hk : 0 < k) :
    ∃ X N, NearDraw P X N (densLaw (chisqPdf k)) (ENNReal.ofReal (7 * Lib.next 0 1)) ∧
      ∀ᵐ s ∂P, rchisq (fin k) s = some (fin (X s), N s) := by
  obtain ⟨X, N, hX, e⟩ := near_rgamma hP hδ (half_pos hk) (eps_le_two)
  rw [← chisqPdf_fun] at hX
  refine ⟨X, N, hX, e.mono fun s hs => ?_⟩
  rw [rchisq, if_neg (by simp [chisq_ok, hk.le]), ← hs]
  simp only [ideal, ifin_div _ (two_ne_zero (α := ℝ))]

theorem C50_rchisq (hP : FairEngine P) (hδ : Lib.next 0 1 ≤ 1 / 30) {k : ℝ} (hk : 0 < k) :
    NearLaw P (rchisq (fin k)) (densLaw (chisqPdf k)) (7 * Lib.next 0 1) := by
  obtain ⟨X, N, hX, h⟩ := near_rchisq hP hδ hk
  exact hX.nearLaw (by linarith [delta_nonneg]) h

/-- Rates above `1/eps` make the generator reject its own scale `1/rate` (see `C28_rinvgamma_violated`). -/
theorem C50_rinvgamma_partial (hP : FairEngine P) (hδ : Lib.next 0 1 ≤ 1 / 30) {α β : ℝ} (ha : 0 < α) (hb0 : 0 < β)
    (hb1 : Lib.eps ≤ 1 / β) :
    NearLaw P (rinvgamma (fin α) (fin β)) (densLaw (invgammaPdf α β)) (7 * Lib.next 0 1) := by
  have := hP.prob
  obtain ⟨X, N, hX, e⟩ := near_rgamma hP hδ ha hb1
  have hpos := hX.ae_val (densLaw_ae (measurable_gammaPdf α (1 / β)) (p := fun x => 0 < x)
    fun x hx => by rw [gammaPdf, if_neg hx])
  refine NearDraw.nearLaw (by linarith [delta_nonneg])
    (invgamma_inv ha hb0 ▸ hX.map (f := fun x => 1 / x) (by fun_prop)) ?_
  filter_upwards [e, hpos] with s hs hp
  rw [rinvgamma, if_neg (by simp [invgamma_ok, ha.le, hb0.le])]
  simp only [ideal, ifin_div _ hb0.ne', hs, Option.map_some, ifin_div _ hp.ne']

theorem C50_rbeta (hP : FairEngine P) (hδ : Lib.next 0 1 ≤ 1 / 30) {a b : ℝ} (ha : 0 < a) (hb : 0 < b) :
    NearLaw P (rbeta (fin a) (fin b)) (densLaw (betaPdf a b)) (14 * Lib.next 0 1) := by
  have := hP.prob
  have d0 : 0 ≤ Lib.next 0 1 := delta_nonneg
  have pa : ∀ {c : ℝ}, 0 < c → IsProbabilityMeasure (densLaw (gammaPdf c 1)) := fun hc => (isCdf_gamma hc one_pos).isProb
  have p1 := pa ha
  have p2 := pa hb
  obtain ⟨X, N, hX, eX⟩ := near_rgamma hP hδ ha eps_le_one
  obtain ⟨Y, M, hY, eY⟩ := near_rgamma hP hδ hb eps_le_one
  have pos : ∀ {c : ℝ}, ∀ᵐ x ∂densLaw (gammaPdf c 1), 0 < x := fun {c} =>
    densLaw_ae (measurable_gammaPdf c 1) (p := fun x => 0 < x) fun x hx => by rw [gammaPdf, if_neg hx]
  have hB := (hX.comp hY).map (f := fun p => p.1 / (p.1 + p.2)) (by fun_prop)
  rw [beta_ratio ha hb, ← ENNReal.ofReal_add (by linarith) (by linarith),
    show 7 * Lib.next 0 1 + 7 * Lib.next 0 1 = 14 * Lib.next 0 1 by ring] at hB
  refine hB.nearLaw (by linarith) ?_
  filter_upwards [eX, hX.ae eY, hX.ae_val pos, hX.ae (hY.ae_val pos)] with s h1 h2 h3 h4
  rw [rbeta, if_neg (by simp [beta_ok, ha.le, hb.le])]
  simp only [ideal, h1, Option.bind_some, h2, Option.map_some, ifin_div _ (add_pos h3 h4).ne']

theorem C50_rf (hP : FairEngine P) (hδ : Lib.next 0 1 ≤ 1 / 30) {d₁ d₂ : ℝ} (h1 : Lib.eps ≤ d₁) (h2 : Lib.eps ≤ d₂) :
    NearLaw P (rf (fin d₁) (fin d₂)) (densLaw (fPdf d₁ d₂)) (14 * Lib.next 0 1) := by
  have := hP.prob
  have d0 : 0 ≤ Lib.next 0 1 := delta_nonneg
  have p1 : 0 < d₁ := Lib.eps_pos.trans_le h1
  have p2 : 0 < d₂ := Lib.eps_pos.trans_le h2
  have q1 := (isCdf_chisq p1).isProb
  have q2 := (isCdf_chisq p2).isProb
  obtain ⟨X, N, hX, eX⟩ := near_rchisq hP hδ p1
  obtain ⟨Y, M, hY, eY⟩ := near_rchisq hP hδ p2
  have pos : ∀ᵐ x ∂densLaw (chisqPdf d₂), 0 < x := by
    rw [chisqPdf_fun]
    exact densLaw_ae (measurable_gammaPdf _ 2) (p := fun x => 0 < x) fun x hx => by rw [gammaPdf, if_neg hx]
  have hB := (hX.comp hY).map (f := fun p => d₂ / d₁ * p.1 / p.2) (by fun_prop)
  rw [f_ratio p1 p2, ← ENNReal.ofReal_add (by linarith) (by linarith),
    show 7 * Lib.next 0 1 + 7 * Lib.next 0 1 = 14 * Lib.next 0 1 by ring] at hB
  refine hB.nearLaw (by linarith) ?_
  filter_upwards [eX, hX.ae eY, hX.ae (hY.ae_val pos)] with s g1 g2 g4
  rw [rf, if_neg (by simp [f_ok, h1, h2, eps])]
  simp only [ideal, g1, Option.bind_some, g2, Option.map_some, ifin_div _ p1.ne', ifin_div _ g4.ne']

theorem C50_rt (hP : FairEngine P) (hδ : Lib.next 0 1 ≤ 1 / 30) {ν : ℝ} (h : Lib.eps ≤ ν) :
    NearLaw P (rt (fin ν)) (densLaw (tPdf ν)) (7 * Lib.next 0 1) := by
  have := hP.prob
  have p : 0 < ν := Lib.eps_pos.trans_le h
  have q := (isCdf_chisq p).isProb
  obtain ⟨X, N, hX, eX⟩ := rnorm_draw hP 0 one_pos
  obtain ⟨Y, M, hY, eY⟩ := near_rchisq hP hδ p
  have pos : ∀ᵐ x ∂densLaw (chisqPdf ν), 0 < x := by
    rw [chisqPdf_fun]
    exact densLaw_ae (measurable_gammaPdf _ 2) (p := fun x => 0 < x) fun x hx => by rw [gammaPdf, if_neg hx]
  have hB := (hX.near.comp hY).map (f := fun p => p.1 / √(p.2 / ν)) (by fun_prop)
  rw [t_ratio p, zero_add] at hB
  refine hB.nearLaw (by linarith [delta_nonneg]) ?_
  filter_upwards [eX, hX.ae eY, hX.ae (hY.ae_val pos)] with s g1 g2 g4
  have g5 : 0 < Y (N s) / ν := by positivity
  rw [rt, if_neg (by simp [t_ok, h, eps])]
  simp only [ideal, g1, g2, Option.map_some, ifin_div _ p.ne', isqrt g5.le, ifin_div _ (Real.sqrt_pos.2 g5).ne']

theorem C50_rinvgauss (hP : FairEngine P) (hδ : Lib.next 0 1 < 1) {mu lambda : ℝ} (hm : 0 < mu) (hl : 0 < lambda) :
    NearLaw P (fun s => some (rinvgauss (fin mu) (fin lambda) s)) (densLaw (invgaussPdf mu lambda)) (Lib.next 0 1) := by
  have := hP.prob
  obtain ⟨Z, N, hZ, eZ⟩ := fair_norm hP
  obtain ⟨U, M, hU, eU⟩ := near_runif hP hδ
  have h1 := hZ.map (f := fun z => igRoot mu lambda (z * z)) ((measurable_igRoot hm hl).comp (by fun_prop))
  have hp := h1.isProb
  rw [ig_small hm hl] at h1 hp
  have hH : Measurable fun p : ℝ × ℝ => if p.2 ≤ mu / (mu + p.1) then p.1 else mu * mu / p.1 :=
    Measurable.ite (measurableSet_le measurable_snd (by fun_prop)) measurable_fst (by fun_prop)
  have hB := (h1.near.comp hU).map hH
  rw [ig_choose hm hl, zero_add] at hB
  refine hB.nearLaw delta_nonneg ?_
  filter_upwards [eZ, hZ.ae eU] with s hz hu
  rw [rinvgauss_fin hm hl hz hu.1]

end Stats

namespace Stats.ExamplesC50
open Fl Spec MeasureTheory
open scoped Stats.Low

/-- the end of the interval is not 0 here -/
example : Lib.next 0 1 ≠ 0 := Low.next_pos.ne'

example : NearLaw Tape.tapeLaw (fun s => some (runif (fin (-1)) (fin 2) s)) (densLaw (unifPdf (-1) 2)) (1 / 2 ^ 1074) := by
  have e : Lib.next (-1) 2 = -1 + (2 - -1) / 2 ^ 1074 := rfl
  have h : (3 : ℝ) / 2 ^ 1074 < 3 := div_lt_self (by norm_num) (one_lt_pow₀ (by norm_num) (by norm_num))
  have := C50_runif Tape.fair (a := -1) (b := 2) (by rw [e]; linarith [show (2 : ℝ) - -1 = 3 by norm_num]) (by norm_num)
  rwa [e, add_sub_cancel_left, div_div_cancel_left' (by norm_num), ← one_div] at this
example : NearLaw Tape.tapeLaw (fun s => some (rexp (fin 3) s)) (densLaw (expPdf 3)) (1 / 2 ^ 1074) :=
  Low.next ▸ C50_rexp Tape.fair Low.next_lt (by norm_num)
example : NearLaw Tape.tapeLaw (fun s => some (rcauchy (fin 3) (fin 2) s)) (densLaw (cauchyPdf 3 2)) (1 / 2 ^ 1074) :=
  Low.next ▸ C50_rcauchy Tape.fair Low.next_lt 3 (by norm_num)
example : NearLaw Tape.tapeLaw (fun s => some (rlaplace (fin 3) (fin 2) s)) (densLaw (laplacePdf 3 2)) (1 / 2 ^ 1074) :=
  Low.next ▸ C50_rlaplace Tape.fair Low.next_lt 3 (by norm_num)
example : NearLaw Tape.tapeLaw (fun s => some (rlogis (fin 3) (fin 2) s)) (densLaw (logisPdf 3 2)) (1 / 2 ^ 1074) :=
  Low.next ▸ C50_rlogis Tape.fair Low.next_lt 3 (by norm_num)
example : NearLaw Tape.tapeLaw (fun s => some (rweibull (fin 3) (fin 2) s)) (densLaw (weibullPdf 3 2)) (1 / 2 ^ 1074) :=
  Low.next ▸ C50_rweibull Tape.fair Low.next_lt (Low.eps_le (by norm_num)) (Low.eps_le (by norm_num))
example : NearLaw Tape.tapeLaw (fun s => some (rbern (fin (1 / 3)) s)) (massLaw (bernPmf (1 / 3))) (1 / 2 ^ 1074) :=
  Low.next ▸ C50_rbern Tape.fair Low.next_lt (by norm_num) (by norm_num)
example : NearLaw Tape.tapeLaw (fun s => some (rradem (fin (1 / 3)) s)) (massLaw (rademPmf (1 / 3))) (1 / 2 ^ 1074) :=
  Low.next ▸ C50_rradem Tape.fair Low.next_lt (by norm_num) (by norm_num)
example : NearLaw Tape.tapeLaw (fun s => some (rbinom (7 : ℕ) (fin (1 / 3)) s)) (massLaw (binomPmf 7 (1 / 3)))
    ((7 : ℕ) * (1 / 2 ^ 1074)) :=
  Low.next ▸ C50_rbinom Tape.fair Low.next_lt (by norm_num) (by norm_num) 7
example : NearLaw Tape.tapeLaw (rpois (fin 5)) (massLaw (poisPmf 5)) (1 / 2 ^ 1074) :=
  Low.next ▸ C50_rpois Tape.fair Low.next_lt (Low.eps_le (by norm_num))
example : ¬ HasLaw Tape.tapeLaw (rpois (fin (Lib.eps / 2))) (massLaw (poisPmf (Lib.eps / 2))) :=
  C50_rpois_violated Tape.fair Low.next_lt (half_pos Lib.eps_pos) (half_lt_self Lib.eps_pos)
example : NearLaw Tape.tapeLaw (rpois (fin (Lib.eps / 2))) (massLaw (poisPmf (Lib.eps / 2))) (Lib.eps / 2) :=
  C50_rpois_small Tape.fair Low.next_lt (half_pos Lib.eps_pos).le (half_lt_self Lib.eps_pos)
example : NearLaw Tape.tapeLaw (rgamma (fin (1 / 2)) (fin 3)) (densLaw (gammaPdf (1 / 2) 3)) (7 * (1 / 2 ^ 1074)) :=
  Low.next ▸ C50_rgamma Tape.fair Low.next_le (by norm_num) (Low.eps_le (by norm_num))
example : NearLaw Tape.tapeLaw (rchisq (fin 5)) (densLaw (chisqPdf 5)) (7 * (1 / 2 ^ 1074)) :=
  Low.next ▸ C50_rchisq Tape.fair Low.next_le (by norm_num)
example : NearLaw Tape.tapeLaw (rinvgamma (fin 2) (fin 3)) (densLaw (invgammaPdf 2 3)) (7 * (1 / 2 ^ 1074)) :=
  Low.next ▸ C50_rinvgamma_partial Tape.fair Low.next_le (by norm_num) (by norm_num) (Low.eps_le (by norm_num))
example : NearLaw Tape.tapeLaw (rbeta (fin 2) (fin 3)) (densLaw (betaPdf 2 3)) (14 * (1 / 2 ^ 1074)) :=
  Low.next ▸ C50_rbeta Tape.fair Low.next_le (by norm_num) (by norm_num)
example : NearLaw Tape.tapeLaw (rf (fin 2) (fin 3)) (densLaw (fPdf 2 3)) (14 * (1 / 2 ^ 1074)) :=
  Low.next ▸ C50_rf Tape.fair Low.next_le (Low.eps_le (by norm_num)) (Low.eps_le (by norm_num))
example : NearLaw Tape.tapeLaw (rt (fin 4)) (densLaw (tPdf 4)) (7 * (1 / 2 ^ 1074)) :=
  Low.next ▸ C50_rt Tape.fair Low.next_le (Low.eps_le (by norm_num))
example : NearLaw Tape.tapeLaw (fun s => some (rinvgauss (fin 2) (fin 3) s)) (densLaw (invgaussPdf 2 3)) (1 / 2 ^ 1074) :=
  Low.next ▸ C50_rinvgauss Tape.fair Low.next_lt (by norm_num) (by norm_num)

end Stats.ExamplesC50

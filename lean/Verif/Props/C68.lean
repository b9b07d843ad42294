import Verif.Lemmas.Hier
import Verif.Props.C60
import Verif.Props.C67

/-!
# C68: draws with a drawn parameter

A program draws a parameter from one generator and passes it to another. The law of the final number is the mixture, and
for the classical pairs it is the law of a third generator. Errors are multiples of `δ = nextafter(0,1)` in the
probability of any event, as in C50.
-/

set_option linter.unusedSectionVars false
open Classical
open MeasureTheory Set
open scoped ENNReal

namespace Stats
open Fl Spec
variable [Lib] [Ideal] {S : Type*} [MeasurableSpace S] [Engine S] {P : Measure S}

/-! ### tools -/

omit [Ideal] in
theorem mixes_lint {T : Set ℝ} (hT : MeasurableSet T) {cw ck : ℝ → Fl} {v : Fl} (hM : Mixes T cw ck v) {w k : ℝ → ℝ} {m : ℝ}
    (hw : ∀ θ ∈ T, cw θ = fin (w θ)) (hk : ∀ θ ∈ T, ck θ = fin (k θ)) (hv : v = fin m) (h0 : ∀ θ, θ ∉ T → w θ ≤ 0) :
    ∫⁻ θ, ENNReal.ofReal (w θ) * ENNReal.ofReal (k θ) = ENNReal.ofReal m := by
  obtain ⟨hpos, hi, he⟩ := hM
  have pos : ∀ θ ∈ T, 0 < w θ ∧ 0 < k θ := fun θ hθ => by
    obtain ⟨a, b, pa, pb, ea, eb⟩ := hpos θ hθ
    rw [hw θ hθ] at ea
    rw [hk θ hθ] at eb
    injection ea with ea
    injection eb with eb
    exact ⟨ea ▸ pa, eb ▸ pb⟩
  have eq : ∀ θ ∈ T, toR (cw θ) * toR (ck θ) = w θ * k θ := fun θ hθ => by rw [hw θ hθ, hk θ hθ]; rfl
  have hi' : IntegrableOn (fun θ => w θ * k θ) T := hi.congr_fun eq hT
  rw [hv, setIntegral_congr_fun hT eq] at he
  injection he with he
  rw [he, ofReal_integral_eq_lintegral_ofReal hi' ((ae_restrict_mem hT).mono fun θ hθ => (mul_pos (pos θ hθ).1 (pos θ hθ).2).le),
    ← lintegral_indicator hT]
  refine lintegral_congr fun θ => ?_
  by_cases hθ : θ ∈ T
  · rw [indicator_of_mem hθ, ENNReal.ofReal_mul (pos θ hθ).1.le]
  · rw [indicator_of_notMem hθ, ENNReal.ofReal_of_nonpos (h0 θ hθ), zero_mul]

theorem near_rinvgamma (hP : FairEngine P) (hδ : Lib.next 0 1 ≤ 1 / 30) {α β : ℝ} (ha : 0 < α) (hb0 : 0 < β)
    (hb1 : Lib.eps ≤ 1 / β) :
    ∃ X N, NearDraw P X N (densLaw (invgammaPdf α β)) (ENNReal.ofReal (7 * Lib.next 0 1)) ∧
      ∀ᵐ s ∂P, rinvgamma (fin α) (fin β) s = some (fin (X s), N s) := by
  have := hP.prob
  obtain ⟨X, N, hX, e⟩ := near_rgamma hP hδ ha hb1
  have hpos := hX.ae_val (densLaw_ae (measurable_gammaPdf α (1 / β)) (p := fun x => 0 < x)
    fun x hx => by rw [gammaPdf, if_neg hx])
  refine ⟨_, N, invgamma_inv ha hb0 ▸ hX.map (f := fun x => 1 / x) (by fun_prop), ?_⟩
  filter_upwards [e, hpos] with s hs hp
  rw [rinvgamma, if_neg (by simp [invgamma_ok, ha.le, hb0.le])]
  simp only [ideal, ifin_div _ hb0.ne', hs, Option.map_some, ifin_div _ hp.ne']

theorem near_rexp (hP : FairEngine P) (hδ : Lib.next 0 1 < 1) {rate : ℝ} (h : 0 < rate) :
    ∃ X N, NearDraw P X N (densLaw (gammaPdf 1 (1 / rate))) (ENNReal.ofReal (Lib.next 0 1)) ∧
      ∀ᵐ s ∂P, some (rexp (fin rate) s) = some (fin (X s), N s) := by
  have := hP.prob
  obtain ⟨U, N, hd, hu⟩ := near_runif hP hδ
  obtain ⟨X, hm, hX, hl⟩ := IsInv.measurable (isCdf_exp h) (qexp_inv h)
  have hd := hd.map hm
  rw [hl, exp_gamma h] at hd
  refine ⟨_, _, hd, ?_⟩
  filter_upwards [hu] with s hs
  rw [rexp, if_neg (by simp [exp_ok, h.le]), zero_eq, one_eq, hs.1, ← hX _ hs.2.1 hs.2.2]

omit [Lib] [Ideal] in
theorem measurable_invgammaPdf (α β : ℝ) : Measurable (invgammaPdf α β) := by
  unfold invgammaPdf
  exact Measurable.ite measurableSet_Ioi (by fun_prop) measurable_const

omit [Lib] [Ideal] in
theorem gamma_one_exp {rate x : ℝ} (h : 0 < rate) (hx : 0 < x) : gammaPdf 1 (1 / rate) x = expPdf rate x := by
  rw [gammaPdf, expPdf, if_pos hx, if_pos hx.le, sub_self, Real.rpow_zero, Real.rpow_one, Real.Gamma_one, one_mul, mul_one,
    show -x / (1 / rate) = -rate * x by field_simp]
  field_simp

/-- A normal draw whose mean and deviation depend on an earlier draw. -/
theorem near_hier_norm (hP : FairEngine P) {g : S → Option (Fl × S)} {X : S → ℝ} {N : S → S} {w p : ℝ → ℝ} {ε : ℝ≥0∞}
    [IsProbabilityMeasure (densLaw w)] (hw : Measurable w)
    (hg : NearDraw P X N (densLaw w) ε) (eg : ∀ᵐ s ∂P, g s = some (fin (X s), N s)) {T : Set ℝ}
    (h0 : ∀ θ, θ ∉ T → w θ ≤ 0) {cm cs : Fl → Fl} {m sd : ℝ → ℝ} (mm : Measurable m) (ms : Measurable sd)
    (hm : ∀ θ ∈ T, cm (fin θ) = fin (m θ)) (hs : ∀ θ ∈ T, cs (fin θ) = fin (sd θ) ∧ 0 < sd θ)
    (e : ∀ᵐ x, ∫⁻ θ, ENNReal.ofReal (w θ) * ENNReal.ofReal (normPdf (m θ) (sd θ) x) = ENNReal.ofReal (p x)) :
    ∃ Y L, NearDraw P Y L (densLaw p) ε ∧
      ∀ᵐ s ∂P, hier g (fun v s => some (rnorm (cm v) (cs v) s)) s = some (fin (Y s), L s) := by
  have := hP.prob
  have := (isCdf_norm 0 one_pos).isProb
  obtain ⟨Z, M, hZ, eZ⟩ := fair_norm hP
  have hT : ∀ᵐ θ ∂densLaw w, θ ∈ T := densLaw_ae hw h0
  have r := near_hier (op := fun θ z => m θ + sd θ * z) hg eg hZ.near hT (by fun_prop)
    (h := fun v s => some (rnorm (cm v) (cs v) s))
    (eZ.mono fun s hz θ hθ => by rw [hm θ hθ, (hs θ hθ).1, rnorm_fin _ (hs θ hθ).2.le hz])
    (mix_dens (k := fun θ => normPdf (m θ) (sd θ)) (p := p) hw (by unfold normPdf; fun_prop)
      (hT.mono fun θ hθ => norm_affine _ (hs θ hθ).2) e)
  rwa [add_zero] at r

/-! ### normal draws -/

/-- a normal mean around which a normal number is drawn -/
theorem C68_rnorm_rnorm (hP : FairEngine P) (m : ℝ) {t sigma : ℝ} (ht : 0 < t) (h : 0 < sigma) :
    HasLaw P (hier (fun s => some (rnorm (fin m) (fin t) s)) fun v s => some (rnorm v (fin sigma) s))
      (densLaw (normPdf m √(t ^ 2 + sigma ^ 2))) := by
  have := hP.prob
  have := (isCdf_norm m ht).isProb
  obtain ⟨X, N, hX, e⟩ := rnorm_draw hP m ht
  obtain ⟨Y, L, hY, eY⟩ := near_hier_norm hP (g := fun s => some (rnorm (fin m) (fin t) s)) (T := univ)
    (measurable_normPdf m t) hX.near
    (e.mono fun s hs => by rw [hs]) (fun θ hθ => absurd trivial hθ) (cm := id) (cs := fun _ => fin sigma) (m := id)
    (sd := fun _ => sigma) measurable_id measurable_const (fun _ _ => rfl) (fun _ _ => ⟨rfl, h⟩)
    (p := normPdf m √(t ^ 2 + sigma ^ 2)) (.of_forall fun x => mixes_lint .univ (C67_norm_norm x m ht h)
      (fun θ _ => (C08_dnorm m ht θ trivial).2.1) (fun θ _ => (C08_dnorm θ h x trivial).2.1)
      (C08_dnorm m (Real.sqrt_pos.2 (by positivity)) x trivial).2.1 (fun θ hθ => absurd trivial hθ))
  exact hasLaw_iff.2 ⟨Y, L, hY.exact, eY⟩

/-- a lognormal draw whose log-mean is a normal draw -/
theorem C68_rnorm_rlnorm (hP : FairEngine P) (m : ℝ) {t sigma : ℝ} (ht : 0 < t) (h : 0 < sigma) :
    HasLaw P (hier (fun s => some (rnorm (fin m) (fin t) s)) fun v s => some (rlnorm v (fin sigma) s))
      (densLaw (lnormPdf m √(t ^ 2 + sigma ^ 2))) := by
  have := hP.prob
  obtain ⟨Y, L, hY, eY⟩ := hasLaw_iff.1 (C68_rnorm_rnorm hP m ht h)
  obtain ⟨X, N, -, e⟩ := rnorm_draw hP m ht
  refine hasLaw_iff.2 ⟨_, L, lnorm_exp m (sigma := √(t ^ 2 + sigma ^ 2)) (by positivity) ▸ hY.map Real.measurable_exp, ?_⟩
  filter_upwards [e, eY] with s h1 h2
  rw [hier, h1, Option.bind_some] at h2 ⊢
  simp only at h2 ⊢
  rw [rlnorm, if_neg (by simp [lnorm_ok, h.le]), Option.some.inj h2]
  simp only [ideal]

/-- a variance with an inverse gamma distribution gives a t draw -/
theorem C68_rinvgamma_rnorm (hP : FairEngine P) (hδ : Lib.next 0 1 ≤ 1 / 30) {ν : ℝ} (h : Lib.eps ≤ ν)
    (h' : Lib.eps ≤ 1 / (ν / 2)) :
    NearLaw P (hier (rinvgamma (fin (ν / 2)) (fin (ν / 2))) fun v s => some (rnorm (fin 0) (Fl.sqrt v) s))
      (densLaw (tPdf ν)) (7 * Lib.next 0 1) := by
  have := hP.prob
  have p : 0 < ν := Lib.eps_pos.trans_le h
  have hk : 0 < ν / 2 := half_pos p
  have := (isCdf_invgamma hk hk).isProb
  obtain ⟨X, N, hX, e⟩ := near_rinvgamma hP hδ hk hk h'
  obtain ⟨Y, L, hY, eY⟩ := near_hier_norm hP (T := Ioi 0) (measurable_invgammaPdf _ _) hX e
    (fun θ hθ => (if_neg hθ).le) (cm := fun _ => fin 0) (cs := Fl.sqrt) (m := fun _ => 0)
    (sd := fun v => √v) measurable_const (by fun_prop) (fun _ _ => rfl)
    (fun v hv => ⟨isqrt (le_of_lt hv), Real.sqrt_pos.2 hv⟩)
    (p := tPdf ν) (.of_forall fun x => mixes_lint measurableSet_Ioi (C67_norm_invgamma_t x h)
      (fun θ hθ => (C08_dinvgamma hk hk θ hθ).2.1) (fun θ hθ => (C08_dnorm 0 (Real.sqrt_pos.2 hθ) x trivial).2.1)
      (C08_dt h x trivial).2.1 (fun θ hθ => (if_neg hθ).le))
  exact hY.nearLaw (by linarith [delta_nonneg]) eY

/-- the same with the precision drawn from a chi-squared distribution -/
theorem C68_rchisq_rnorm (hP : FairEngine P) (hδ : Lib.next 0 1 ≤ 1 / 30) {ν : ℝ} (h : Lib.eps ≤ ν) :
    NearLaw P (hier (rchisq (fin ν)) fun u s => some (rnorm (fin 0) (Fl.sqrt (fin ν / u)) s))
      (densLaw (tPdf ν)) (7 * Lib.next 0 1) := by
  have := hP.prob
  have p : 0 < ν := Lib.eps_pos.trans_le h
  have := (isCdf_chisq p).isProb
  obtain ⟨X, N, hX, e⟩ := near_rchisq hP hδ p
  have hz : ∀ θ, θ ∉ Ioi (0 : ℝ) → chisqPdf ν θ ≤ 0 := fun θ hθ => (if_neg hθ).le
  have hq : ∀ u : ℝ, u ∈ Ioi (0 : ℝ) → 0 < ν / u := fun u hu => div_pos p hu
  obtain ⟨Y, L, hY, eY⟩ := near_hier_norm hP (T := Ioi 0) (by rw [chisqPdf_fun]; exact measurable_gammaPdf _ _) hX e
    hz (cm := fun _ => fin 0) (cs := fun u => Fl.sqrt (fin ν / u)) (m := fun _ => 0)
    (sd := fun u => √(ν / u)) measurable_const (by fun_prop) (fun _ _ => rfl)
    (fun u hu => ⟨by rw [ifin_div _ (ne_of_gt hu), isqrt (hq u hu).le], Real.sqrt_pos.2 (hq u hu)⟩)
    (p := tPdf ν) (.of_forall fun x => mixes_lint measurableSet_Ioi (C67_norm_chisq_t x h)
      (fun θ hθ => (C08_dchisq p θ hθ).2.1) (fun θ hθ => (C08_dnorm 0 (Real.sqrt_pos.2 (hq θ hθ)) x trivial).2.1)
      (C08_dt h x trivial).2.1 hz)
  exact hY.nearLaw (by linarith [delta_nonneg]) eY

/-- an exponential variance gives a Laplace draw -/
theorem C68_rexp_rnorm (hP : FairEngine P) (hδ : Lib.next 0 1 < 1) (mu : ℝ) {b : ℝ} (hb : 0 < b) :
    NearLaw P (hier (fun s => some (rexp (fin (1 / (2 * b ^ 2))) s)) fun v s => some (rnorm (fin mu) (Fl.sqrt v) s))
      (densLaw (laplacePdf mu b)) (Lib.next 0 1) := by
  have := hP.prob
  have hr : 0 < 1 / (2 * b ^ 2) := by positivity
  have := (isCdf_gamma one_pos (one_div_pos.2 hr)).isProb
  obtain ⟨X, N, hX, e⟩ := near_rexp hP hδ hr
  have hz : ∀ θ, θ ∉ Ioi (0 : ℝ) → gammaPdf 1 (1 / (1 / (2 * b ^ 2))) θ ≤ 0 := fun θ hθ => (if_neg hθ).le
  obtain ⟨Y, L, hY, eY⟩ := near_hier_norm hP (g := fun s => some (rexp (fin (1 / (2 * b ^ 2))) s)) (T := Ioi 0)
    (measurable_gammaPdf _ _) hX e
    hz (cm := fun _ => fin mu) (cs := Fl.sqrt) (m := fun _ => mu)
    (sd := fun v => √v) measurable_const (by fun_prop) (fun _ _ => rfl)
    (fun v hv => ⟨isqrt (le_of_lt hv), Real.sqrt_pos.2 hv⟩)
    (p := laplacePdf mu b) (.of_forall fun x => mixes_lint measurableSet_Ioi (C67_norm_exp_laplace x mu hb)
      (fun θ hθ => by rw [gamma_one_exp hr hθ]; exact (C08_dexp hr θ (Ioi_subset_Ici_self hθ)).2.1)
      (fun θ hθ => (C08_dnorm mu (Real.sqrt_pos.2 hθ) x trivial).2.1)
      (C08_dlaplace mu hb x trivial).2.1 hz)
  exact hY.nearLaw delta_nonneg eY

/-! ### exponential draws -/

theorem rexp_op {rate u : ℝ} (h : 0 < rate) (h0 : 0 < u) (h1 : u < 1) : qexp (fin u) (fin rate) = fin (-Real.log (1 - u) / rate) := by
  have hl : Real.log (1 - u) < 0 := Real.log_neg (by linarith) (by linarith)
  have hx : 0 < -Real.log (1 - u) / rate := div_pos (by linarith) h
  have e : (if 0 < -Real.log (1 - u) / rate then 1 - Real.exp (-rate * (-Real.log (1 - u) / rate)) else 0) = u := by
    rw [if_pos hx, show -rate * (-Real.log (1 - u) / rate) = Real.log (1 - u) by field_simp, Real.exp_log (by linarith)]
    ring
  have := qexp_inv h (-Real.log (1 - u) / rate) (by simp only [e]; exact h0) (by simp only [e]; exact h1)
  simp only [e] at this
  exact this

theorem rexp_op_law {rate : ℝ} (h : 0 < rate) :
    (volume.restrict (Ioo (0 : ℝ) 1)).map (fun u => -Real.log (1 - u) / rate) = densLaw (expPdf rate) := by
  obtain ⟨X, hm, hX, hl⟩ := IsInv.measurable (isCdf_exp h) (qexp_inv h)
  rw [← hl]
  refine Measure.map_congr ?_
  filter_upwards [ae_restrict_mem measurableSet_Ioo] with u hu
  have := (rexp_op h hu.1 hu.2).symm.trans (hX u hu.1 hu.2)
  injection this

/-- A gamma rate gives a scaled F draw, with 2 and `2k` degrees of freedom. -/
theorem C68_rgamma_rexp (hP : FairEngine P) (hδ : Lib.next 0 1 ≤ 1 / 30) {k θ : ℝ} (hk : Lib.eps ≤ 2 * k) (hθ : Lib.eps ≤ θ) :
    NearLaw P (hier (rgamma (fin k) (fin θ)) fun l s => some (rexp l s))
      (densLaw fun x => k * θ * fPdf 2 (2 * k) (k * θ * x)) (8 * Lib.next 0 1) := by
  have := hP.prob
  have hk0 : 0 < k := by linarith [Lib.eps_pos]
  have hθ0 : 0 < θ := Lib.eps_pos.trans_le hθ
  have d0 : 0 ≤ Lib.next 0 1 := delta_nonneg
  have := (isCdf_gamma hk0 hθ0).isProb
  have hp : IsProbabilityMeasure (volume.restrict (Ioo (0 : ℝ) 1)) := ⟨by simp⟩
  obtain ⟨X, N, hX, e⟩ := near_rgamma hP hδ hk0 hθ
  obtain ⟨U, M, hU, eU⟩ := near_runif hP (by linarith)
  have hz : ∀ l, l ∉ Ioi (0 : ℝ) → gammaPdf k θ l ≤ 0 := fun l hl => (if_neg hl).le
  have hT := densLaw_ae (measurable_gammaPdf k θ) (p := fun l => l ∈ Ioi (0 : ℝ)) hz
  have key : ∀ᵐ x : ℝ, ∫⁻ l, ENNReal.ofReal (gammaPdf k θ l) * ENNReal.ofReal (expPdf l x) =
      ENNReal.ofReal (k * θ * fPdf 2 (2 * k) (k * θ * x)) := by
    filter_upwards [compl_mem_ae_iff.2 (measure_singleton (0 : ℝ))] with x hx
    rcases lt_or_gt_of_ne (show x ≠ 0 from hx) with hx | hx
    · have hn : k * θ * x < 0 := mul_neg_of_pos_of_neg (by positivity) hx
      simp [expPdf, not_le.2 hx, fPdf, not_lt.2 hn.le]
    · have hy : 0 < k * θ * x := by positivity
      refine mixes_lint measurableSet_Ioi (C67_exp_gamma_f hk hθ hx) (fun l hl => (C08_dgamma hk0 hθ l hl).2.1)
        (fun l hl => (C08_dexp hl x (le_of_lt hx)).2.1) ?_ hz
      have h2 : Lib.eps ≤ 2 := eps_le_two
      have := (C08_df h2 hk (k * θ * x) hy).2.1
      simp only at this
      rw [this, ifin_mul]
  obtain ⟨Y, L, hY, eY⟩ := near_hier (op := fun l u => -Real.log (1 - u) / l) hX e hU hT (by fun_prop)
    (h := fun l s => some (rexp l s)) (F := densLaw fun x => k * θ * fPdf 2 (2 * k) (k * θ * x))
    (eU.mono fun s hs l hl => by
      rw [rexp, if_neg (by simp [exp_ok, le_of_lt (mem_Ioi.1 hl)]), zero_eq, one_eq, hs.1, ← rexp_op hl hs.2.1 hs.2.2])
    (mix_dens (k := expPdf) (measurable_gammaPdf k θ)
      (Measurable.ite (measurableSet_le measurable_const measurable_snd) (by fun_prop) measurable_const)
      (hT.mono fun l hl => rexp_op_law hl) key)
  rw [← ENNReal.ofReal_add (by linarith) d0, show 7 * Lib.next 0 1 + Lib.next 0 1 = 8 * Lib.next 0 1 by ring] at hY
  exact hY.nearLaw (by linarith) eY

/-! ### counts -/

/-- The binomial loop with the probability as an argument: it counts uniform numbers up to the probability. -/
theorem near_rbinom_op (hP : FairEngine P) (hδ : Lib.next 0 1 < 1) (n : ℕ) :
    ∃ (β : Type) (_ : MeasurableSpace β) (E : Measure β) (U : S → β) (M : S → S) (op : ℝ → β → ℤ),
      IsProbabilityMeasure E ∧ NearDraw P U M E (ENNReal.ofReal (n * Lib.next 0 1)) ∧
      (Measurable fun z : ℝ × β => op z.1 z.2) ∧
      (∀ p : ℝ, 0 ≤ p → p ≤ 1 → E.map (op p) = massZ (binomPmf n p)) ∧
      ∀ᵐ s ∂P, ∀ p : ℝ, 0 ≤ p → p ≤ 1 → ∀ m : ℝ, rbinom_loop (fin p) n (fin m) s = (fin (m + (op p (U s) : ℤ)), M s) := by
  have := hP.prob
  induction n with
  | zero =>
    have hd : Draw P (fun _ => ()) id (Measure.dirac ()) := ⟨measurable_const, measurable_id, by
      rw [Measure.dirac_prod]; rfl⟩
    refine ⟨Unit, inferInstance, Measure.dirac (), _, _, fun _ _ => 0, inferInstance, by simpa using hd.near,
      measurable_const, fun p h0 h1 => ?_, .of_forall fun s p h0 h1 m => ?_⟩
    · rw [massZ_binom_zero]; exact Measure.map_dirac' (measurable_of_countable _) _
    · simp [rbinom_loop]
  | succ n ih =>
    obtain ⟨β, _, E, V, M, op, pE, hV, mo, hl, hs⟩ := ih
    obtain ⟨U, N, hU, hu⟩ := near_runif hP hδ
    have hp : IsProbabilityMeasure (volume.restrict (Ioo (0 : ℝ) 1)) := ⟨by simp⟩
    have hd := hU.comp hV
    rw [← ENNReal.ofReal_add delta_nonneg (mul_nonneg n.cast_nonneg delta_nonneg)] at hd
    have mt : Measurable fun z : ℝ × ℝ => if z.2 ≤ z.1 then (1 : ℤ) else 0 :=
      Measurable.ite (measurableSet_le measurable_snd measurable_fst) measurable_const measurable_const
    refine ⟨ℝ × β, inferInstance, _, _, _, fun p z => (if z.1 ≤ p then (1 : ℤ) else 0) + op p z.2, inferInstance,
      hd.mono (ENNReal.ofReal_le_ofReal (by push_cast; linarith)), ?_, fun p h0 h1 => ?_, ?_⟩
    · exact (mt.comp (measurable_fst.prodMk (measurable_fst.comp measurable_snd))).add
        (mo.comp (measurable_fst.prodMk (measurable_snd.comp measurable_snd)))
    · have m1 : Measurable fun u : ℝ => if u ≤ p then (1 : ℤ) else 0 :=
        Measurable.ite measurableSet_Iic measurable_const measurable_const
      have m2 : Measurable (op p) := mo.comp measurable_prodMk_left
      rw [← massZ_binom_succ h0 h1, ← hl p h0 h1, massZ_bern, ← map_threshold h0 h1, Measure.map_prod_map _ _ m1 m2,
        Measure.map_map (measurable_of_countable _) (m1.prodMap m2)]
      rfl
    · filter_upwards [hu, hU.ae hs] with s h1 h2 p p0 p1 m
      rw [rbinom_loop, rbern, if_neg (by simp [bern_ok, p0, p1]), zero_eq, one_eq]
      simp only [h1.1, fin_le_fin]
      split_ifs with hc
      · simp only [ideal]
        rw [h2 p p0 p1]
        push_cast
        rw [add_assoc]
      · simp only [ideal]
        rw [h2 p p0 p1]
        push_cast
        rw [add_assoc]

omit [Lib] [Ideal] in
theorem betabinom_lint {a b : ℝ} (ha : 0 < a) (hb : 0 < b) (n : ℕ) (x : ℤ) :
    ∫⁻ p, ENNReal.ofReal (betaPdf a b p) * ENNReal.ofReal (binomPmf n p x) = ENNReal.ofReal (betabinomPmf n a b x) := by
  by_cases hx : 0 ≤ x ∧ x ≤ n
  swap
  · simp [binomPmf, betabinomPmf, hx]
  obtain ⟨j, rfl⟩ := Int.eq_ofNat_of_zero_le hx.1
  have hj : j ≤ n := by exact_mod_cast hx.2
  have ha' : 0 < a + j := by positivity
  have hb' : 0 < b + (n - j : ℕ) := by positivity
  have hF := isCdf_beta ha' hb'
  have hB := beta_pos ha hb
  have hB' := beta_pos ha' hb'
  have e : ∀ p, ENNReal.ofReal (betaPdf a b p) * ENNReal.ofReal (binomPmf n p j) =
      ENNReal.ofReal (betabinomPmf n a b j) * ENNReal.ofReal (betaPdf (a + j) (b + (n - j : ℕ)) p) := by
    intro p
    have c0 : 0 ≤ betabinomPmf n a b j := by
      rw [betabinomPmf, if_pos hx]
      have := beta_pos ha' hb'
      rw [Nat.cast_sub hj] at this
      push_cast
      positivity
    by_cases hp : 0 < p ∧ p < 1
    swap
    · simp [betaPdf, hp]
    have hq : 0 < 1 - p := by linarith [hp.2]
    have hp0 := hp.1
    rw [← ENNReal.ofReal_mul (by rw [betaPdf, if_pos hp]; positivity), ← ENNReal.ofReal_mul c0, betaPdf, betaPdf, if_pos hp,
      if_pos hp, binomPmf, if_pos hx, betabinomPmf, if_pos hx, Int.toNat_natCast,
      show a + (j : ℝ) - 1 = (a - 1) + j by ring, show b + ((n - j : ℕ) : ℝ) - 1 = (b - 1) + (n - j : ℕ) by ring,
      Real.rpow_add_natCast hp0.ne', Real.rpow_add_natCast hq.ne', Int.cast_natCast, ← Nat.cast_sub hj]
    congr 1
    field_simp
  simp only [e]
  rw [lintegral_const_mul' _ _ ENNReal.ofReal_ne_top, ← ofReal_integral_eq_lintegral_ofReal hF.integrable hF.nonneg, hF.total]
  simp

omit [Lib] [Ideal] in
theorem measurable_betaPdf (a b : ℝ) : Measurable (betaPdf a b) := by
  unfold betaPdf
  exact Measurable.ite measurableSet_Ioo (by fun_prop) measurable_const

theorem near_rbeta (hP : FairEngine P) (hδ : Lib.next 0 1 ≤ 1 / 30) {a b : ℝ} (ha : 0 < a) (hb : 0 < b) :
    ∃ X N, NearDraw P X N (densLaw (betaPdf a b)) (ENNReal.ofReal (14 * Lib.next 0 1)) ∧
      ∀ᵐ s ∂P, rbeta (fin a) (fin b) s = some (fin (X s), N s) := by
  have := hP.prob
  have d0 : 0 ≤ Lib.next 0 1 := delta_nonneg
  have pa : ∀ {c : ℝ}, 0 < c → IsProbabilityMeasure (densLaw (gammaPdf c 1)) := fun hc => (isCdf_gamma hc one_pos).isProb
  have p1 := pa ha
  have p2 := pa hb
  obtain ⟨X, N, hX, eX⟩ := near_rgamma hP hδ ha eps_le_one
  obtain ⟨Y, M, hY, eY⟩ := near_rgamma hP hδ hb eps_le_one
  have pos : ∀ {c : ℝ}, ∀ᵐ x ∂densLaw (gammaPdf c 1), 0 < x := fun {c} =>
    densLaw_ae (measurable_gammaPdf c 1) (p := fun x => 0 < x) fun x hx => by rw [gammaPdf, if_neg hx]
  have hB := (hX.comp hY).map (f := fun p => p.1 / (p.1 + p.2)) (by fun_prop)
  rw [beta_ratio ha hb, ← ENNReal.ofReal_add (by linarith) (by linarith),
    show 7 * Lib.next 0 1 + 7 * Lib.next 0 1 = 14 * Lib.next 0 1 by ring] at hB
  refine ⟨_, _, hB, ?_⟩
  filter_upwards [eX, hX.ae eY, hX.ae_val pos, hX.ae (hY.ae_val pos)] with s h1 h2 h3 h4
  rw [rbeta, if_neg (by simp [beta_ok, ha.le, hb.le])]
  simp only [ideal, h1, Option.bind_some, h2, Option.map_some, ifin_div _ (add_pos h3 h4).ne']

omit [Lib] [Ideal] in
theorem massLaw_tsum (p : ℤ → ℝ) {A : Set ℝ} (hA : MeasurableSet A) :
    massLaw p A = ∑' k : ℤ, ENNReal.ofReal (p k) * A.indicator 1 (k : ℝ) := by
  rw [massLaw, Measure.sum_apply _ hA]
  refine tsum_congr fun k => ?_
  rw [Measure.smul_apply, Measure.dirac_apply' _ hA, smul_eq_mul]

omit [Lib] [Ideal] in
theorem mix_mass {w : ℝ → ℝ} (hw : Measurable w) {k : ℝ → ℤ → ℝ} (hk : ∀ x, Measurable fun θ => k θ x) {p : ℤ → ℝ}
    (hm : ∀ x, ∫⁻ θ, ENNReal.ofReal (w θ) * ENNReal.ofReal (k θ x) = ENNReal.ofReal (p x)) {A : Set ℝ}
    (hA : MeasurableSet A) : ∫⁻ θ, massLaw (k θ) A ∂densLaw w = massLaw p A := by
  have mk : ∀ x, Measurable fun θ => ENNReal.ofReal (k θ x) := fun x => (hk x).ennreal_ofReal
  simp only [massLaw_tsum _ hA]
  rw [lintegral_tsum fun x => ((mk x).mul_const _).aemeasurable]
  refine tsum_congr fun x => ?_
  rw [lintegral_mul_const _ (mk x), densLaw, lintegral_withDensity_eq_lintegral_mul _ hw.ennreal_ofReal (mk x), ← hm x]
  rfl

/-- A beta probability gives a beta-binomial draw. -/
theorem C68_rbeta_rbinom (hP : FairEngine P) (hδ : Lib.next 0 1 ≤ 1 / 30) {a b : ℝ} (ha : 0 < a) (hb : 0 < b) (n : ℕ) :
    NearLaw P (hier (rbeta (fin a) (fin b)) fun p s => some (rbinom n p s)) (massLaw (betabinomPmf n a b))
      ((n + 14) * Lib.next 0 1) := by
  have := hP.prob
  have d0 : 0 ≤ Lib.next 0 1 := delta_nonneg
  have := (isCdf_beta ha hb).isProb
  obtain ⟨X, N, hX, e⟩ := near_rbeta hP hδ ha hb
  obtain ⟨β, _, E, U, M, op, pE, hU, mo, hl, hs⟩ := near_rbinom_op hP (by linarith) n
  have hT := densLaw_ae (measurable_betaPdf a b) (p := fun p => p ∈ Ioo (0 : ℝ) 1) (fun p hp => (if_neg hp).le)
  have mc : Measurable fun k : ℤ => (k : ℝ) := measurable_of_countable _
  obtain ⟨Y, L, hY, eY⟩ := near_hier (op := fun p u => (op p u : ℝ)) hX e hU hT (mc.comp mo)
    (h := fun p s => some (rbinom n p s)) (F := massLaw (betabinomPmf n a b))
    (hs.mono fun s hs p hp => by
      rw [rbinom, if_neg (by simp [binom_ok, hp.1.le, hp.2.le]), Int.toNat_natCast, zero_eq, hs p hp.1.le hp.2.le, zero_add])
    (fun A hA => by
      rw [← mix_mass (measurable_betaPdf a b) (fun x => by unfold binomPmf; split_ifs <;> fun_prop)
        (betabinom_lint ha hb n) hA]
      refine lintegral_congr_ae (hT.mono fun p hp => ?_)
      have m2 : Measurable (op p) := mo.comp measurable_prodMk_left
      simp only
      rw [← massZ_map, ← hl p hp.1.le hp.2.le, Measure.map_map mc m2]
      rfl)
  rw [← ENNReal.ofReal_add (by linarith) (by positivity),
    show 14 * Lib.next 0 1 + n * Lib.next 0 1 = (n + 14) * Lib.next 0 1 by ring] at hY
  exact hY.nearLaw (by positivity) eY

theorem near_rpois (hP : FairEngine P) (hδ : Lib.next 0 1 < 1) {rate : ℝ} (hr : Lib.eps ≤ rate) :
    ∃ K N, NearDraw P K N (massZ (poisPmf rate)) (ENNReal.ofReal (Lib.next 0 1)) ∧
      ∀ᵐ s ∂P, rpois (fin rate) s = some (fin (K s : ℤ), N s) := by
  have := hP.prob
  have hr0 : 0 ≤ rate := Lib.eps_pos.le.trans hr
  obtain ⟨U, N, hd, h⟩ := near_runif hP hδ
  obtain ⟨K, hKm, hK, hlaw⟩ := qpois_measurable hr
  have hd' := hd.map hKm
  rw [hlaw] at hd'
  refine ⟨_, N, hd', ?_⟩
  filter_upwards [h] with s hs
  rw [rpois, if_neg (by simp [pois_ok, hr0]), zero_eq, one_eq]
  simp only [hs.1]
  rw [hK (U s) hs.2.1 hs.2.2]
  rfl

omit [Lib] [Ideal] in
theorem lintegral_massZ (p : ℤ → ℝ) (f : ℤ → ℝ≥0∞) : ∫⁻ k, f k ∂massZ p = ∑' k : ℤ, ENNReal.ofReal (p k) * f k := by
  rw [massZ, lintegral_sum_measure]
  refine tsum_congr fun k => ?_
  rw [lintegral_smul_measure, lintegral_dirac, smul_eq_mul]

omit [Lib] [Ideal] in
/-- sums over the counts -/
theorem tsum_counts {f : ℤ → ℝ≥0∞} (h : ∀ k, k < 0 → f k = 0) : ∑' k : ℤ, f k = ∑' n : ℕ, f n := by
  have hi : Function.Injective fun n : ℕ => (n : ℤ) := Nat.cast_injective
  refine (hi.tsum_eq ?_).symm
  intro k hk
  by_contra hc
  refine hk (h k ?_)
  by_contra hk'
  exact hc ⟨k.toNat, Int.toNat_of_nonneg (not_lt.1 hk')⟩

omit [Lib] [Ideal] in
/-- A count with probabilities `w` selects a law with probabilities `k n`. -/
theorem mix_counts {w p : ℤ → ℝ} {k : ℕ → ℤ → ℝ} (hw : ∀ n : ℕ, 0 ≤ w n) (hw' : ∀ n < 0, w n = 0) (hk : ∀ n x, 0 ≤ k n x)
    (hm : ∀ x, HasSum (fun n : ℕ => w n * k n x) (p x)) {A : Set ℝ} (hA : MeasurableSet A) :
    ∫⁻ n, massLaw (k n.toNat) A ∂massZ w = massLaw p A := by
  rw [lintegral_massZ, tsum_counts fun n hn => by rw [hw' n hn, ENNReal.ofReal_zero, zero_mul]]
  simp only [massLaw_tsum _ hA, Int.toNat_natCast, ← ENNReal.tsum_mul_left]
  rw [ENNReal.tsum_comm]
  refine tsum_congr fun x => ?_
  rw [← (hm x).tsum_eq, ENNReal.ofReal_tsum_of_nonneg (fun n => mul_nonneg (hw n) (hk n x)) (hm x).summable,
    ← ENNReal.tsum_mul_right]
  refine tsum_congr fun n => ?_
  rw [ENNReal.ofReal_mul (hw n), mul_assoc]

omit [Lib] [Ideal] in
theorem pois_mean {l : ℝ} (d : ℝ) : HasSum (fun n : ℕ => poisPmf l n * (n * d)) (l * d) := by
  have h : HasSum (fun n : ℕ => poisPmf l n) 1 := by
    have hs := (NormedSpace.expSeries_div_hasSum_exp (𝔸 := ℝ) l).mul_left (Real.exp (-l))
    rw [← Real.exp_eq_exp_ℝ, ← Real.exp_add, neg_add_cancel, Real.exp_zero] at hs
    refine (congrArg (HasSum · _) (funext fun j => ?_)).mpr hs
    rw [poisPmf, if_pos (by omega), Int.toNat_natCast]
    ring
  rw [← hasSum_nat_add_iff' 1]
  simp only [Finset.range_one, Finset.sum_singleton, Nat.cast_zero, zero_mul, mul_zero, sub_zero]
  have h' := h.mul_left (l * d)
  rw [mul_one] at h'
  refine (congrArg (HasSum · _) (funext fun n => ?_)).mpr h'
  rw [poisPmf, if_pos (by omega), Int.toNat_natCast, poisPmf, if_pos (by omega), Int.toNat_natCast, Nat.factorial_succ]
  have : ((n : ℝ) + 1) ≠ 0 := by positivity
  have : (n.factorial : ℝ) ≠ 0 := by positivity
  push_cast
  field_simp
  ring

theorem pois_thin {l p : ℝ} (hl : 0 ≤ l) (h0 : 0 ≤ p) (h1 : p ≤ 1) (x : ℤ) :
    HasSum (fun n : ℕ => poisPmf l n * binomPmf n p x) (poisPmf (l * p) x) := by
  rcases lt_or_ge x 0 with hx | hx
  · rw [poisPmf, if_neg (by omega)]
    refine (congrArg (HasSum · _) (funext fun n => ?_)).mpr hasSum_zero
    rw [binomPmf, if_neg (by omega), mul_zero]
  obtain ⟨x, rfl⟩ := Int.eq_ofNat_of_zero_le hx
  obtain ⟨-, r, hs, hv⟩ := C67_pois_thinning hl h0 h1 x
  have e := (C08_dpois (mul_nonneg hl h0) (x : ℤ)).2.1
  rw [e] at hv
  injection hv with hv
  rw [hv]
  refine (congrArg (HasSum · _) (funext fun n => ?_)).mpr hs
  have e1 := (C08_dpois hl (n : ℤ)).2.1
  have e2 := (C08_dbinom n h0 h1 (x : ℤ)).2.1
  show _ = toR (dpois (n : ℤ) (fin l) false) * toR (dbinom (x : ℤ) (n : ℤ) (fin p) false)
  rw [e1, e2]
  rfl

omit [Lib] [Ideal] in
theorem binomPmf_in {n x : ℕ} (p : ℝ) (h : x ≤ n) : binomPmf n p x = n.choose x * p ^ x * (1 - p) ^ (n - x) := by
  rw [binomPmf, if_pos ⟨by omega, by omega⟩, Int.toNat_natCast]

omit [Lib] [Ideal] in
theorem binomPmf_out {n : ℕ} {x : ℤ} (p : ℝ) (h : ¬ (0 ≤ x ∧ x ≤ n)) : binomPmf n p x = 0 := if_neg h

omit [Lib] [Ideal] in
theorem binom_thin (n : ℕ) (p q : ℝ) (x : ℤ) : HasSum (fun k : ℕ => binomPmf n p k * binomPmf k q x) (binomPmf n (p * q) x) := by
  by_cases hx : 0 ≤ x ∧ x ≤ n
  swap
  · rw [binomPmf, if_neg hx]
    refine (congrArg (HasSum · _) (funext fun k => ?_)).mpr hasSum_zero
    by_cases hk : k ≤ n
    · rw [binomPmf_out q (x := x) (by omega), mul_zero]
    · rw [binomPmf_out p (x := (k : ℤ)) (by omega), zero_mul]
  obtain ⟨x, rfl⟩ := Int.eq_ofNat_of_zero_le hx.1
  obtain ⟨r, rfl⟩ := Nat.exists_eq_add_of_le (show x ≤ n by exact_mod_cast hx.2)
  have hinj : Function.Injective fun j : ℕ => x + j := add_right_injective x
  rw [← hinj.hasSum_iff]
  swap
  · intro k hk
    have : k < x := by
      by_contra hc
      exact hk ⟨k - x, by show x + (k - x) = k; omega⟩
    rw [binomPmf_out q (x := (x : ℤ)) (by omega), mul_zero]
  have hs : HasSum (fun j : ℕ => binomPmf (x + r) p ((x + j : ℕ) : ℤ) * binomPmf (x + j) q x)
      (∑ j ∈ Finset.range (r + 1), binomPmf (x + r) p ((x + j : ℕ) : ℤ) * binomPmf (x + j) q x) := by
    refine hasSum_sum_of_ne_finset_zero fun j hj => ?_
    rw [Finset.mem_range] at hj
    rw [binomPmf_out p (by push_cast; omega), zero_mul]
  refine Eq.mpr (congrArg (HasSum _) ?_) hs
  have hsum : (1 - p * q) ^ r = ∑ j ∈ Finset.range (r + 1), (p * (1 - q)) ^ j * (1 - p) ^ (r - j) * r.choose j := by
    rw [← add_pow]; congr 1; ring
  rw [binomPmf_in _ (by omega), Nat.add_sub_cancel_left, hsum, Finset.mul_sum]
  refine Finset.sum_congr rfl fun j hj => ?_
  have hj : j ≤ r := by rw [Finset.mem_range] at hj; omega
  rw [binomPmf_in p (by omega), binomPmf_in q (by omega), Nat.add_sub_add_left, Nat.add_sub_cancel_left]
  have hc := congrArg (Nat.cast (R := ℝ)) (Nat.choose_mul (n := x + r) (k := x + j) (s := x) (by omega))
  rw [Nat.add_sub_cancel_left, Nat.add_sub_cancel_left] at hc
  push_cast at hc
  rw [mul_pow, mul_pow, pow_add]
  linear_combination (-(p ^ x * p ^ j * (1 - p) ^ (r - j) * q ^ x * (1 - q) ^ j)) * hc

omit [Lib] [Ideal] in
theorem binom_mean (n : ℕ) (p d : ℝ) : HasSum (fun k : ℕ => binomPmf n p k * (k * d)) (n * p * d) := by
  have h1 : ∀ n, HasSum (fun k : ℕ => binomPmf n p k) 1 := fun n => by
    have h := binom_thin n p 0 0
    have e : ∀ k : ℕ, binomPmf k 0 0 = 1 := fun k => by
      have := binomPmf_in (n := k) 0 (Nat.zero_le k)
      simpa using this
    simpa only [e, mul_one, mul_zero] using h
  cases n with
  | zero =>
    simp only [CharP.cast_eq_zero, zero_mul]
    refine (congrArg (HasSum · _) (funext fun k => ?_)).mpr hasSum_zero
    rcases Nat.eq_zero_or_pos k with rfl | hk
    · simp
    · rw [binomPmf_out p (by omega), zero_mul]
  | succ m =>
    rw [← hasSum_nat_add_iff' 1]
    simp only [Finset.range_one, Finset.sum_singleton, Nat.cast_zero, zero_mul, mul_zero, sub_zero]
    have h' := (h1 m).mul_left (((m + 1 : ℕ) : ℝ) * p * d)
    rw [mul_one] at h'
    refine (congrArg (HasSum · _) (funext fun j => ?_)).mpr h'
    by_cases hj : j ≤ m
    · rw [binomPmf_in p (by omega), binomPmf_in p hj, Nat.add_sub_add_right, pow_succ]
      have hc := congrArg (Nat.cast (R := ℝ)) (Nat.add_one_mul_choose_eq m j)
      push_cast at hc ⊢
      linear_combination (-(p ^ j * p * (1 - p) ^ (m - j) * d)) * hc
    · rw [binomPmf_out p (by omega), binomPmf_out p (by omega), zero_mul, mul_zero]

theorem massZ_pois_prob {l : ℝ} (h : 0 ≤ l) : IsProbabilityMeasure (massZ (poisPmf l)) := by
  have hp := massLaw_pois_prob h
  refine ⟨?_⟩
  rw [← massZ_map] at hp
  have := hp.measure_univ
  rwa [Measure.map_apply (measurable_of_countable _) .univ, preimage_univ] at this

/-- A binomial draw with a drawn number of trials. -/
theorem near_hier_binom (hP : FairEngine P) (hδ : Lib.next 0 1 < 1) {p : ℝ} (h0 : 0 ≤ p) (h1 : p ≤ 1)
    {g : S → Option (Fl × S)} {w w' : ℤ → ℝ} [IsProbabilityMeasure (massZ w)] (hw : ∀ n : ℕ, 0 ≤ w n) (hw' : ∀ n < 0, w n = 0)
    {K : S → ℤ} {N : S → S} {ε m : ℝ} (hε : 0 ≤ ε) (hg : NearDraw P K N (massZ w) (ENNReal.ofReal ε))
    (eg : ∀ᵐ s ∂P, g s = some (fin (K s : ℤ), N s)) (hm : HasSum (fun n : ℕ => w n * (n * Lib.next 0 1)) (m * Lib.next 0 1))
    (hm0 : 0 ≤ m) (hs : ∀ x, HasSum (fun n : ℕ => w n * binomPmf n p x) (w' x)) :
    NearLaw P (hier g fun v s => some (rbinom (count v) (fin p) s)) (massLaw w') (ε + m * Lib.next 0 1) := by
  have := hP.prob
  have d0 : 0 ≤ Lib.next 0 1 := delta_nonneg
  choose K' N' hd hb using fun n : ℕ => near_rbinom hP hδ h0 h1 n
  have mc : Measurable fun k : ℤ => (k : ℝ) := measurable_of_countable _
  have pB : ∀ k : ℤ, IsProbabilityMeasure (massLaw (binomPmf k.toNat p)) := fun k => by
    have := massZ_binom_prob h0 h1 k.toNat
    rw [← massZ_map]
    exact Measure.isProbabilityMeasure_map mc.aemeasurable
  have hT : ∀ᵐ k ∂massZ w, k ∈ Ici (0 : ℤ) := by
    rw [ae_iff, ← lintegral_indicator_one (MeasurableSet.of_discrete), lintegral_massZ]
    refine ENNReal.tsum_eq_zero.2 fun k => ?_
    by_cases hk : k < 0
    · rw [hw' k hk, ENNReal.ofReal_zero, zero_mul]
    · rw [indicator_of_notMem (by simpa using hk), mul_zero]
  obtain ⟨Y, L, hY, eY⟩ := near_hier_int (W := massZ w) (D := fun k => massLaw (binomPmf k.toNat p)) pB
    (X := fun k s => ((K' k.toNat s : ℤ) : ℝ)) (M := fun k => N' k.toNat)
    (η := fun k => ENNReal.ofReal (k.toNat * Lib.next 0 1)) (F := massLaw w') hg eg
    (fun k => by rw [← massZ_map]; exact (hd k.toNat).map mc) hT
    (h := fun v s => some (rbinom (count v) (fin p) s)) (fun k hk => (hb k.toNat).mono fun s hs => by
      have hk : 0 ≤ k := hk
      have e : count (fin (k : ℝ)) = k := by rw [count, toR, Int.floor_intCast]
      rw [e, rbinom, if_neg (by simp [binom_ok, h0, h1, hk]), zero_eq, hs, zero_add])
    (fun A hA => mix_counts hw hw' (fun n x => binomPmf_nonneg h0 h1 x) hs hA)
  have eη : ∫⁻ k : ℤ, ENNReal.ofReal (k.toNat * Lib.next 0 1) ∂massZ w = ENNReal.ofReal (m * Lib.next 0 1) := by
    rw [lintegral_massZ, tsum_counts fun n hn => by rw [hw' n hn, ENNReal.ofReal_zero, zero_mul], ← hm.tsum_eq,
      ENNReal.ofReal_tsum_of_nonneg (fun n => mul_nonneg (hw n) (by positivity)) hm.summable]
    refine tsum_congr fun n => ?_
    rw [Int.toNat_natCast, ENNReal.ofReal_mul (hw n)]
  rw [eη, ← ENNReal.ofReal_add hε (by positivity)] at hY
  exact hY.nearLaw (by positivity) eY

/-- Poisson many trials: the successes are a Poisson draw. -/
theorem C68_rpois_rbinom (hP : FairEngine P) (hδ : Lib.next 0 1 < 1) {rate p : ℝ} (hr : Lib.eps ≤ rate) (h0 : 0 ≤ p) (h1 : p ≤ 1) :
    NearLaw P (hier (rpois (fin rate)) fun v s => some (rbinom (count v) (fin p) s)) (massLaw (poisPmf (rate * p)))
      ((1 + rate) * Lib.next 0 1) := by
  have hr0 : 0 ≤ rate := Lib.eps_pos.le.trans hr
  obtain ⟨K, N, hd, e⟩ := near_rpois hP hδ hr
  have := massZ_pois_prob hr0
  rw [one_add_mul]
  exact near_hier_binom hP hδ h0 h1 (fun n => poisPmf_nonneg hr0 n) (fun n hn => if_neg (by omega)) delta_nonneg hd e
    (pois_mean _) hr0 (pois_thin hr0 h0 h1)

/-- The successes of a binomial draw tried again. -/
theorem C68_rbinom_rbinom (hP : FairEngine P) (hδ : Lib.next 0 1 < 1) {p q : ℝ} (h0 : 0 ≤ p) (h1 : p ≤ 1) (g0 : 0 ≤ q) (g1 : q ≤ 1)
    (n : ℕ) :
    NearLaw P (hier (fun s => some (rbinom n (fin p) s)) fun v s => some (rbinom (count v) (fin q) s))
      (massLaw (binomPmf n (p * q))) ((n + n * p) * Lib.next 0 1) := by
  have d0 : 0 ≤ Lib.next 0 1 := delta_nonneg
  obtain ⟨K, N, hd, e⟩ := near_rbinom hP hδ h0 h1 n
  have := massZ_binom_prob h0 h1 n
  rw [add_mul]
  exact near_hier_binom hP hδ g0 g1 (fun n => binomPmf_nonneg h0 h1 n) (fun n hn => if_neg (by omega)) (by positivity) hd
    (e.mono fun s hs => by rw [rbinom, if_neg (by simp [binom_ok, h0, h1]), Int.toNat_natCast, zero_eq, hs, zero_add])
    (binom_mean n p _) (by positivity) (binom_thin n p q)

/-- One of two normal draws, chosen by a coin: the mixture of the two densities. -/
theorem C68_rbern_rnorm (hP : FairEngine P) (hδ : Lib.next 0 1 < 1) {p : ℝ} (h0 : 0 ≤ p) (h1 : p ≤ 1) (m₀ m₁ : ℝ) {s₀ s₁ : ℝ}
    (g0 : 0 < s₀) (g1 : 0 < s₁) :
    NearLaw P (hier (fun s => some (rbern (fin p) s)) fun v s =>
        if v = fin 1 then some (rnorm (fin m₁) (fin s₁) s) else some (rnorm (fin m₀) (fin s₀) s))
      (densLaw fun x => p * normPdf m₁ s₁ x + (1 - p) * normPdf m₀ s₀ x) (Lib.next 0 1) := by
  have := hP.prob
  have q0 : 0 ≤ 1 - p := by linarith
  obtain ⟨K, N, hd, e⟩ := near_rbern hP hδ h0 h1
  have := massZ_bern_prob h0 h1
  have i1 := (isCdf_norm m₁ g1).isProb
  have i0 := (isCdf_norm m₀ g0).isProb
  obtain ⟨X₁, M₁, hX₁, e₁⟩ := rnorm_draw hP m₁ g1
  obtain ⟨X₀, M₀, hX₀, e₀⟩ := rnorm_draw hP m₀ g0
  obtain ⟨Y, L, hY, eY⟩ := near_hier_int (W := massZ (bernPmf p))
    (D := fun k => if k = 1 then densLaw (normPdf m₁ s₁) else densLaw (normPdf m₀ s₀))
    (fun k => by split_ifs <;> assumption) (X := fun k => if k = 1 then X₁ else X₀) (M := fun k => if k = 1 then M₁ else M₀)
    (η := fun _ => 0) (F := densLaw fun x => p * normPdf m₁ s₁ x + (1 - p) * normPdf m₀ s₀ x)
    (g := fun s => some (rbern (fin p) s)) hd (e.mono fun s hs => by rw [hs])
    (fun k => by split_ifs; exacts [hX₁.near, hX₀.near]) (T := univ) (by simp)
    (h := fun v s => if v = fin 1 then some (rnorm (fin m₁) (fin s₁) s) else some (rnorm (fin m₀) (fin s₀) s))
    (fun k _ => by
      by_cases hk : k = 1
      · subst hk
        filter_upwards [e₁] with s hs
        simp [hs]
      · filter_upwards [e₀] with s hs
        have : ¬ ((k : ℝ) = 1) := by exact_mod_cast hk
        simp [hs, hk, this])
    (fun A hA => by
      have n1 : ∀ x, 0 ≤ normPdf m₁ s₁ x := fun x => (normPdf_pos g1 x).le
      have n0 : ∀ x, 0 ≤ normPdf m₀ s₀ x := fun x => (normPdf_pos g0 x).le
      have v1 : Measurable fun x => ENNReal.ofReal (normPdf m₁ s₁ x) := (measurable_normPdf m₁ s₁).ennreal_ofReal
      have v0 : Measurable fun x => ENNReal.ofReal (normPdf m₀ s₀ x) := (measurable_normPdf m₀ s₀).ennreal_ofReal
      rw [massZ_bern, lintegral_add_measure, lintegral_smul_measure, lintegral_smul_measure, lintegral_dirac, lintegral_dirac]
      simp only [if_true, zero_ne_one, if_false, smul_eq_mul, densLaw]
      rw [withDensity_apply _ hA, withDensity_apply _ hA, withDensity_apply _ hA, ← lintegral_const_mul _ v1,
        ← lintegral_const_mul _ v0, ← lintegral_add_left (v1.const_mul _)]
      refine lintegral_congr fun x => ?_
      rw [ENNReal.ofReal_add (mul_nonneg h0 (n1 x)) (mul_nonneg q0 (n0 x)), ENNReal.ofReal_mul h0, ENNReal.ofReal_mul q0])
  rw [lintegral_zero, add_zero] at hY
  exact hY.nearLaw delta_nonneg eY

end Stats

namespace Stats.ExamplesC68
open Fl Spec MeasureTheory
open scoped Stats.Low

example : HasLaw Tape.tapeLaw (hier (fun s => some (rnorm (fin 1) (fin 3) s)) fun v s => some (rnorm v (fin 4) s))
    (densLaw (normPdf 1 √(3 ^ 2 + 4 ^ 2))) := C68_rnorm_rnorm Tape.fair 1 (by norm_num) (by norm_num)
example : HasLaw Tape.tapeLaw (hier (fun s => some (rnorm (fin 1) (fin 3) s)) fun v s => some (rlnorm v (fin 4) s))
    (densLaw (lnormPdf 1 √(3 ^ 2 + 4 ^ 2))) := C68_rnorm_rlnorm Tape.fair 1 (by norm_num) (by norm_num)
example : NearLaw Tape.tapeLaw (hier (rinvgamma (fin (5 / 2)) (fin (5 / 2))) fun v s => some (rnorm (fin 0) (Fl.sqrt v) s))
    (densLaw (tPdf 5)) (7 * (1 / 2 ^ 1074)) :=
  Low.next ▸ C68_rinvgamma_rnorm Tape.fair Low.next_le (Low.eps_le (by norm_num)) (Low.eps_le (by norm_num))
example : NearLaw Tape.tapeLaw (hier (rchisq (fin 5)) fun u s => some (rnorm (fin 0) (Fl.sqrt (fin 5 / u)) s))
    (densLaw (tPdf 5)) (7 * (1 / 2 ^ 1074)) :=
  Low.next ▸ C68_rchisq_rnorm Tape.fair Low.next_le (Low.eps_le (by norm_num))
example : NearLaw Tape.tapeLaw (hier (fun s => some (rexp (fin (1 / (2 * 3 ^ 2))) s)) fun v s => some (rnorm (fin 2) (Fl.sqrt v) s))
    (densLaw (laplacePdf 2 3)) (1 / 2 ^ 1074) := Low.next ▸ C68_rexp_rnorm Tape.fair Low.next_lt 2 (by norm_num)
example : NearLaw Tape.tapeLaw (hier (rgamma (fin 2) (fin 3)) fun l s => some (rexp l s))
    (densLaw fun x => 2 * 3 * fPdf 2 (2 * 2) (2 * 3 * x)) (8 * (1 / 2 ^ 1074)) :=
  Low.next ▸ C68_rgamma_rexp Tape.fair Low.next_le (Low.eps_le (by norm_num)) (Low.eps_le (by norm_num))
example : NearLaw Tape.tapeLaw (hier (rbeta (fin 2) (fin 3)) fun p s => some (rbinom (10 : ℕ) p s)) (massLaw (betabinomPmf 10 2 3))
    (((10 : ℕ) + 14) * (1 / 2 ^ 1074)) :=
  Low.next ▸ C68_rbeta_rbinom Tape.fair Low.next_le (by norm_num) (by norm_num) 10
example : NearLaw Tape.tapeLaw (hier (rpois (fin 7)) fun v s => some (rbinom (count v) (fin (1 / 3)) s))
    (massLaw (poisPmf (7 * (1 / 3)))) ((1 + 7) * (1 / 2 ^ 1074)) :=
  Low.next ▸ C68_rpois_rbinom Tape.fair Low.next_lt (Low.eps_le (by norm_num)) (by norm_num) (by norm_num)
example : NearLaw Tape.tapeLaw (hier (fun s => some (rbinom (10 : ℕ) (fin (1 / 2)) s)) fun v s => some (rbinom (count v) (fin (1 / 3)) s))
    (massLaw (binomPmf 10 (1 / 2 * (1 / 3)))) (((10 : ℕ) + (10 : ℕ) * (1 / 2)) * (1 / 2 ^ 1074)) :=
  Low.next ▸ C68_rbinom_rbinom Tape.fair Low.next_lt (by norm_num) (by norm_num) (by norm_num) (by norm_num) 10
example : NearLaw Tape.tapeLaw (hier (fun s => some (rbern (fin (1 / 4)) s)) fun v s =>
      if v = fin 1 then some (rnorm (fin 5) (fin 2) s) else some (rnorm (fin 0) (fin 1) s))
    (densLaw fun x => 1 / 4 * normPdf 5 2 x + (1 - 1 / 4) * normPdf 0 1 x) (1 / 2 ^ 1074) :=
  Low.next ▸ C68_rbern_rnorm Tape.fair Low.next_lt (by norm_num) (by norm_num) 0 5 (by norm_num) (by norm_num)

end Stats.ExamplesC68

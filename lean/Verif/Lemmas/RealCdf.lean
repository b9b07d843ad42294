import Verif.Lemmas.Cdf
import Verif.Lemmas.Special
import Verif.Lemmas.Elem
import Verif.Spec.Densities
import Mathlib.Analysis.SpecialFunctions.Trigonometric.ArctanDeriv
import Mathlib.Analysis.SpecialFunctions.Pow.Deriv
import Mathlib.Analysis.SpecialFunctions.Sqrt
import Mathlib.Analysis.SpecialFunctions.Pow.Asymptotics

/-! Closed forms of the distribution functions and their densities (real analysis only). -/

open MeasureTheory Set Filter Topology Real

namespace Stats
open Spec

/-- `F` is the distribution function of the density `f`. -/
structure IsCdf (F f : ℝ → ℝ) : Prop where
  nonneg : ∀ᵐ x, 0 ≤ f x
  integrable : Integrable f
  total : ∫ x, f x = 1
  running : ∀ x, ∫ t in Iic x, f t = F x

theorem IsCdf.mono {F f : ℝ → ℝ} (h : IsCdf F f) : Monotone F := by
  intro x y hxy
  rw [← h.running x, ← h.running y]
  exact setIntegral_mono_set h.integrable.integrableOn (ae_restrict_of_ae h.nonneg)
    (Iic_subset_Iic.2 hxy).eventuallyLE

theorem IsCdf.nonneg' {F f : ℝ → ℝ} (h : IsCdf F f) (x : ℝ) : 0 ≤ F x := by
  rw [← h.running x]
  exact integral_nonneg_of_ae (ae_restrict_of_ae h.nonneg)

theorem IsCdf.le_one {F f : ℝ → ℝ} (h : IsCdf F f) (x : ℝ) : F x ≤ 1 := by
  rw [← h.running x, ← h.total]
  exact setIntegral_le_integral h.integrable h.nonneg

theorem IsCdf.congr {F f g : ℝ → ℝ} (h : IsCdf F f) (hfg : f =ᵐ[volume] g) : IsCdf F g := by
  refine ⟨?_, h.integrable.congr hfg, ?_, fun x => ?_⟩
  · filter_upwards [h.nonneg, hfg] with x hx he using he ▸ hx
  · rw [← integral_congr_ae hfg, h.total]
  · rw [← h.running x]
    refine setIntegral_congr_ae measurableSet_Iic ?_
    filter_upwards [hfg] with t ht _ using ht.symm

theorem isCdf_of_deriv {F f : ℝ → ℝ} (hF : Continuous F) (s : Finset ℝ)
    (hd : ∀ x, x ∉ s → HasDerivAt F (f x) x) (hf : ∀ x, x ∉ s → 0 ≤ f x)
    (hbot : Tendsto F atBot (𝓝 0)) (htop : Tendsto F atTop (𝓝 1)) : IsCdf F f := by
  obtain ⟨h1, h2, h3⟩ := cdf_of_deriv hF s hd hf hbot htop
  refine ⟨?_, h1, h2, h3⟩
  have : ∀ᵐ x : ℝ, x ∉ (s : Set ℝ) := (s.countable_toSet.ae_notMem volume)
  filter_upwards [this] with x hx using hf x hx

/-- everywhere differentiable case -/
theorem isCdf_of_deriv' {F f : ℝ → ℝ} (hd : ∀ x, HasDerivAt F (f x) x) (hf : ∀ x, 0 ≤ f x)
    (hbot : Tendsto F atBot (𝓝 0)) (htop : Tendsto F atTop (𝓝 1)) : IsCdf F f :=
  isCdf_of_deriv (continuous_iff_continuousAt.2 fun x => (hd x).continuousAt) ∅ (fun x _ => hd x)
    (fun x _ => hf x) hbot htop

/-- support `(0, ∞)` -/
theorem isCdf_Ioi {G g : ℝ → ℝ} (hd : ∀ x, 0 < x → HasDerivAt G (g x) x) (hg : ∀ x, 0 < x → 0 ≤ g x)
    (h0 : Tendsto G (𝓝[>] 0) (𝓝 0)) (htop : Tendsto G atTop (𝓝 1)) :
    IsCdf (fun x => if 0 < x then G x else 0) (fun x => if 0 < x then g x else 0) := by
  apply isCdf_of_deriv _ {0}
  · intro x hx
    rcases lt_or_gt_of_ne (show x ≠ 0 by simpa using hx) with h | h
    · rw [if_neg h.le.not_gt]
      refine (hasDerivAt_const x (0 : ℝ)).congr_of_eventuallyEq ?_
      filter_upwards [Iio_mem_nhds h] with y hy
      rw [if_neg (not_lt.2 (le_of_lt hy))]
    · rw [if_pos h]
      refine (hd x h).congr_of_eventuallyEq ?_
      filter_upwards [Ioi_mem_nhds h] with y hy
      rw [if_pos (show (0:ℝ) < y from hy)]
  · intro x _
    split_ifs with h
    · exact hg x h
    · exact le_rfl
  · refine tendsto_const_nhds.congr' ?_
    filter_upwards [Iic_mem_atBot 0] with x hx
    rw [if_neg (not_lt.2 hx)]
  · refine htop.congr' ?_
    filter_upwards [Ioi_mem_atTop 0] with x hx
    rw [if_pos (show (0:ℝ) < x from hx)]
  · rw [continuous_iff_continuousAt]
    intro x
    rcases lt_trichotomy x 0 with h | rfl | h
    · refine (continuousAt_const (y := (0 : ℝ))).congr ?_
      filter_upwards [Iio_mem_nhds h] with y hy
      rw [if_neg (not_lt.2 (le_of_lt hy))]
    · rw [continuousAt_iff_continuous_left'_right']
      have hv : (if (0 : ℝ) < 0 then G 0 else 0) = 0 := if_neg (lt_irrefl _)
      constructor
      · rw [ContinuousWithinAt, hv]
        refine tendsto_const_nhds.congr' ?_
        filter_upwards [self_mem_nhdsWithin] with y hy
        rw [if_neg (not_lt.2 (le_of_lt hy))]
      · rw [ContinuousWithinAt, hv]
        refine h0.congr' ?_
        filter_upwards [self_mem_nhdsWithin] with y hy
        rw [if_pos (show (0:ℝ) < y from hy)]
    · refine ((hd x h).continuousAt).congr ?_
      filter_upwards [Ioi_mem_nhds h] with y hy
      rw [if_pos (show (0:ℝ) < y from hy)]

/-! ### normal -/

noncomputable def Phi (z : ℝ) : ℝ := 1 / 2 * (1 + erf (z / √2))

theorem hasDerivAt_Phi (z : ℝ) : HasDerivAt Phi (normPdf 0 1 z) z := by
  have h1 := (hasDerivAt_erf (z / √2)).comp z ((hasDerivAt_id z).div_const √2)
  have h2 := (h1.const_add 1).const_mul (1 / 2)
  refine h2.congr_deriv ?_
  have e1 : (z / √2) ^ 2 = z ^ 2 / 2 := by rw [div_pow, Real.sq_sqrt (by norm_num)]
  rw [normPdf, e1, Real.sqrt_mul (by norm_num)]
  have hp : 0 < √π := Real.sqrt_pos.2 Real.pi_pos
  have h2' : 0 < √2 := by positivity
  have e2 : -((z - 0) ^ 2) / (2 * 1 ^ 2) = -(z ^ 2 / 2) := by ring
  rw [e2]
  field_simp

theorem normPdf_pos' {mu sigma : ℝ} (h : 0 < sigma) (x : ℝ) : 0 < normPdf mu sigma x := by
  have := Real.pi_pos
  unfold normPdf; positivity

theorem strictMono_Phi : StrictMono Phi := by
  intro x y h
  have h2 : 0 < √2 := by positivity
  have : erf (x / √2) < erf (y / √2) := strictMono_erf (div_lt_div_of_pos_right h h2)
  unfold Phi; linarith

theorem tendsto_Phi_atTop : Tendsto Phi atTop (𝓝 1) := by
  have h2 : 0 < √2 := by positivity
  have h := ((tendsto_erf_atTop.comp (tendsto_id.atTop_div_const h2)).const_add 1).const_mul (1 / 2)
  norm_num at h
  exact h.congr fun x => by simp [Phi]

theorem tendsto_Phi_atBot : Tendsto Phi atBot (𝓝 0) := by
  have h2 : 0 < √2 := by positivity
  have h := ((tendsto_erf_atBot.comp (tendsto_id.atBot_div_const h2)).const_add 1).const_mul (1 / 2)
  norm_num at h
  exact h.congr fun x => by simp [Phi]

theorem Phi_neg (z : ℝ) : Phi (-z) = 1 - Phi z := by
  rw [Phi, Phi, neg_div, erf_neg]; ring

theorem Phi_pos (z : ℝ) : 0 < Phi z := by
  have := neg_one_lt_erf (z / √2)
  unfold Phi; linarith
theorem Phi_lt_one (z : ℝ) : Phi z < 1 := by
  have := erf_lt_one (z / √2)
  unfold Phi; linarith

theorem normPdf_std {sigma : ℝ} (h : 0 < sigma) (mu x : ℝ) :
    normPdf mu sigma x = normPdf 0 1 ((x - mu) / sigma) * (1 / sigma) := by
  have hp : 0 < √(2 * π) := Real.sqrt_pos.2 (by positivity)
  have e : -((x - mu) ^ 2) / (2 * sigma ^ 2) = -(((x - mu) / sigma - 0) ^ 2) / (2 * 1 ^ 2) := by
    field_simp; ring
  rw [normPdf, normPdf, e]
  field_simp

/-- affine change of variable -/
theorem hasDerivAt_affine (mu : ℝ) {sigma : ℝ} (x : ℝ) :
    HasDerivAt (fun x => (x - mu) / sigma) (1 / sigma) x :=
  ((hasDerivAt_id x).sub_const mu).div_const sigma

theorem tendsto_affine_atTop (mu : ℝ) {sigma : ℝ} (h : 0 < sigma) :
    Tendsto (fun x => (x - mu) / sigma) atTop atTop :=
  (tendsto_atTop_add_const_right _ _ tendsto_id).atTop_div_const h
theorem tendsto_affine_atBot (mu : ℝ) {sigma : ℝ} (h : 0 < sigma) :
    Tendsto (fun x => (x - mu) / sigma) atBot atBot :=
  (tendsto_atBot_add_const_right _ _ tendsto_id).atBot_div_const h

theorem isCdf_norm (mu : ℝ) {sigma : ℝ} (h : 0 < sigma) :
    IsCdf (fun x => Phi ((x - mu) / sigma)) (normPdf mu sigma) := by
  apply isCdf_of_deriv'
  · intro x
    rw [normPdf_std h]
    exact (hasDerivAt_Phi _).comp x (hasDerivAt_affine mu x)
  · exact fun x => (normPdf_pos' h x).le
  · exact tendsto_Phi_atBot.comp (tendsto_affine_atBot mu h)
  · exact tendsto_Phi_atTop.comp (tendsto_affine_atTop mu h)

theorem isCdf_lnorm (mu : ℝ) {sigma : ℝ} (h : 0 < sigma) :
    IsCdf (fun x => if 0 < x then Phi ((log x - mu) / sigma) else 0) (lnormPdf mu sigma) := by
  have := isCdf_Ioi (G := fun x => Phi ((log x - mu) / sigma))
    (g := fun x => 1 / x * (1 / (√(2 * π) * sigma)) * exp (-((log x - mu) ^ 2) / (2 * sigma ^ 2))) ?_ ?_ ?_ ?_
  · exact this
  · intro x hx
    have h1 := (hasDerivAt_Phi ((log x - mu) / sigma)).comp x
      ((hasDerivAt_affine mu (sigma := sigma) (log x)).comp x (Real.hasDerivAt_log hx.ne'))
    refine h1.congr_deriv ?_
    have := normPdf_std h mu (log x)
    rw [← mul_assoc, ← this, normPdf]
    ring
  · intro x hx
    have : 0 < √(2 * π) := Real.sqrt_pos.2 (by positivity)
    positivity
  · exact tendsto_Phi_atBot.comp ((tendsto_affine_atBot mu h).comp Real.tendsto_log_nhdsGT_zero)
  · exact tendsto_Phi_atTop.comp ((tendsto_affine_atTop mu h).comp Real.tendsto_log_atTop)

/-! ### uniform -/

noncomputable def unifCdf (a b x : ℝ) : ℝ := if x ≤ a then 0 else if b ≤ x then 1 else (x - a) / (b - a)

theorem unifCdf_eq {a b : ℝ} (h : a < b) (x : ℝ) : unifCdf a b x = max 0 (min 1 ((x - a) / (b - a))) := by
  have hb : 0 < b - a := by linarith
  rw [unifCdf]
  split_ifs with h1 h2
  · rw [max_eq_left]
    exact (min_le_right _ _).trans (div_nonpos_of_nonpos_of_nonneg (by linarith) hb.le)
  · rw [min_eq_left (by rw [le_div_iff₀ hb]; linarith), max_eq_right zero_le_one]
  · rw [min_eq_right (by rw [div_le_one hb]; linarith), max_eq_right (div_nonneg (by linarith) hb.le)]

theorem isCdf_unif {a b : ℝ} (h : a < b) : IsCdf (unifCdf a b) (unifPdf a b) := by
  have hb : 0 < b - a := by linarith
  apply isCdf_of_deriv _ {a, b}
  · intro x hx
    simp only [Finset.mem_insert, Finset.mem_singleton, not_or] at hx
    rcases lt_or_gt_of_ne hx.1 with h1 | h1
    · rw [unifPdf, if_neg (by intro c; linarith [c.1])]
      refine (hasDerivAt_const x (0 : ℝ)).congr_of_eventuallyEq ?_
      filter_upwards [Iio_mem_nhds h1] with y hy
      rw [unifCdf, if_pos (le_of_lt hy)]
    · rcases lt_or_gt_of_ne hx.2 with h2 | h2
      · rw [unifPdf, if_pos ⟨h1.le, h2.le⟩]
        refine (hasDerivAt_affine a x).congr_of_eventuallyEq ?_
        filter_upwards [Ioo_mem_nhds h1 h2] with y hy
        rw [unifCdf, if_neg (not_le.2 hy.1), if_neg (not_le.2 hy.2)]
      · rw [unifPdf, if_neg (by intro c; linarith [c.2])]
        refine (hasDerivAt_const x (1 : ℝ)).congr_of_eventuallyEq ?_
        filter_upwards [Ioi_mem_nhds h2] with y hy
        have hy : b < y := hy
        rw [unifCdf, if_neg (by linarith), if_pos hy.le]
  · intro x _
    rw [unifPdf]; split_ifs
    · positivity
    · exact le_rfl
  · refine tendsto_const_nhds.congr' ?_
    filter_upwards [Iic_mem_atBot a] with x hx
    rw [unifCdf, if_pos (show x ≤ a from hx)]
  · refine tendsto_const_nhds.congr' ?_
    filter_upwards [Ici_mem_atTop b] with x hx
    have hx : b ≤ x := hx
    rw [unifCdf, if_neg (by linarith), if_pos hx]
  · have : unifCdf a b = fun x => max 0 (min 1 ((x - a) / (b - a))) := funext (unifCdf_eq h)
    rw [this]
    fun_prop

/-! ### exponential -/

theorem isCdf_exp {rate : ℝ} (h : 0 < rate) :
    IsCdf (fun x => if 0 < x then 1 - exp (-rate * x) else 0) (expPdf rate) := by
  refine IsCdf.congr (f := fun x => if 0 < x then rate * exp (-rate * x) else 0) ?_ ?_
  swap
  · filter_upwards [(Set.countable_singleton (0 : ℝ)).ae_notMem volume] with x hx
    have hx : x ≠ 0 := hx
    rw [expPdf]
    by_cases h0 : 0 < x
    · rw [if_pos h0, if_pos h0.le]
    · rw [if_neg h0, if_neg fun c => h0 (lt_of_le_of_ne c hx.symm)]
  apply isCdf_Ioi
  · intro x _
    have h1 : HasDerivAt (fun x => -rate * x) (-rate) x := by simpa using (hasDerivAt_id x).const_mul (-rate)
    have := (h1.exp).const_sub 1
    refine this.congr_deriv ?_; ring
  · intro x _; positivity
  · have : ContinuousAt (fun x : ℝ => 1 - exp (-rate * x)) 0 := by fun_prop
    have := this.tendsto.mono_left (nhdsWithin_le_nhds (s := Ioi 0))
    simpa using this
  · have h1 : Tendsto (fun x : ℝ => -rate * x) atTop atBot :=
      tendsto_id.const_mul_atTop_of_neg (by linarith)
    simpa using (Real.tendsto_exp_atBot.comp h1).const_sub 1

/-! ### Cauchy, logistic, Laplace -/

theorem isCdf_cauchy (mu : ℝ) {sigma : ℝ} (h : 0 < sigma) :
    IsCdf (fun x => 1 / 2 + arctan ((x - mu) / sigma) / π) (cauchyPdf mu sigma) := by
  have hpi := Real.pi_pos
  apply isCdf_of_deriv'
  · intro x
    have := (((hasDerivAt_arctan ((x - mu) / sigma)).comp x (hasDerivAt_affine mu x)).div_const π).const_add (1 / 2)
    refine this.congr_deriv ?_
    rw [cauchyPdf]
    field_simp
  · intro x; unfold cauchyPdf; positivity
  · have := ((tendsto_arctan_atBot.mono_right nhdsWithin_le_nhds).comp
      (tendsto_affine_atBot mu h)).div_const π |>.const_add (1 / 2)
    have e : 1 / 2 + -(π / 2) / π = 0 := by field_simp; ring
    rwa [e] at this
  · have := ((tendsto_arctan_atTop.mono_right nhdsWithin_le_nhds).comp
      (tendsto_affine_atTop mu h)).div_const π |>.const_add (1 / 2)
    have e : 1 / 2 + (π / 2) / π = 1 := by field_simp; ring
    rwa [e] at this

theorem logis_form (mu sigma x : ℝ) :
    1 / 2 * (1 + tanh ((x - mu) / (2 * sigma))) = 1 / (1 + exp (-((x - mu) / sigma))) := by
  rw [tanh_eq']
  have e : 2 * ((x - mu) / (2 * sigma)) = (x - mu) / sigma := by
    rcases eq_or_ne sigma 0 with rfl | h
    · simp
    · field_simp
  rw [e, Real.exp_neg]
  have := Real.exp_pos ((x - mu) / sigma)
  field_simp
  ring

theorem isCdf_logis (mu : ℝ) {sigma : ℝ} (h : 0 < sigma) :
    IsCdf (fun x => 1 / (1 + exp (-((x - mu) / sigma)))) (logisPdf mu sigma) := by
  apply isCdf_of_deriv'
  · intro x
    have h1 := ((hasDerivAt_affine mu (sigma := sigma) x).neg.exp.const_add 1).inv
      (show 1 + exp (-((x - mu) / sigma)) ≠ 0 by positivity)
    have h1 := h1.congr_deriv (show _ = logisPdf mu sigma x by rw [logisPdf]; simp only [Pi.neg_apply]; field_simp)
    refine h1.congr_of_eventuallyEq (Eventually.of_forall fun y => ?_)
    simp
  · intro x; unfold logisPdf; positivity
  · have h1 : Tendsto (fun x => -((x - mu) / sigma)) atBot atTop :=
      tendsto_neg_atBot_atTop.comp (tendsto_affine_atBot mu h)
    have h2 := tendsto_atTop_add_const_left _ (1 : ℝ) (Real.tendsto_exp_atTop.comp h1)
    exact (tendsto_inv_atTop_zero.comp h2).congr fun x => by simp
  · have h1 : Tendsto (fun x => -((x - mu) / sigma)) atTop atBot :=
      tendsto_neg_atTop_atBot.comp (tendsto_affine_atTop mu h)
    have h2 := ((Real.tendsto_exp_atBot.comp h1).const_add 1).inv₀ (by norm_num)
    simpa using h2

noncomputable def laplaceCdf (mu sigma x : ℝ) : ℝ :=
  if x < mu then 1 / 2 * exp ((x - mu) / sigma) else 1 - 1 / 2 * exp (-((x - mu) / sigma))

theorem isCdf_laplace (mu : ℝ) {sigma : ℝ} (h : 0 < sigma) :
    IsCdf (laplaceCdf mu sigma) (laplacePdf mu sigma) := by
  apply isCdf_of_deriv _ {mu}
  · intro x hx
    rcases lt_or_gt_of_ne (show x ≠ mu by simpa using hx) with h1 | h1
    · have h2 := ((hasDerivAt_affine mu (sigma := sigma) x).exp).const_mul (1 / 2)
      refine HasDerivAt.congr_of_eventuallyEq (f := fun x => 1 / 2 * exp ((x - mu) / sigma)) ?_ ?_
      · refine h2.congr_deriv ?_
        rw [laplacePdf, abs_of_neg (by linarith), neg_neg]; field_simp
      · filter_upwards [Iio_mem_nhds h1] with y hy
        rw [laplaceCdf, if_pos (show y < mu from hy)]
    · have h2 := (((hasDerivAt_affine mu (sigma := sigma) x).neg.exp).const_mul (1 / 2)).const_sub 1
      refine HasDerivAt.congr_of_eventuallyEq (f := fun x => 1 - 1 / 2 * exp (-((x - mu) / sigma))) ?_ ?_
      · refine h2.congr_deriv ?_
        rw [laplacePdf, abs_of_pos (by linarith), neg_div]; simp only [Pi.neg_apply]; field_simp
      · filter_upwards [Ioi_mem_nhds h1] with y hy
        rw [laplaceCdf, if_neg (not_lt.2 (le_of_lt hy))]
  · intro x _; unfold laplacePdf; positivity
  · have h2 := (Real.tendsto_exp_atBot.comp (tendsto_affine_atBot mu h)).const_mul (1 / 2)
    rw [mul_zero] at h2
    refine h2.congr' ?_
    filter_upwards [Iio_mem_atBot mu] with x hx
    rw [laplaceCdf, if_pos (show x < mu from hx)]; rfl
  · have h1 : Tendsto (fun x => -((x - mu) / sigma)) atTop atBot :=
      tendsto_neg_atTop_atBot.comp (tendsto_affine_atTop mu h)
    have h2 := ((Real.tendsto_exp_atBot.comp h1).const_mul (1 / 2)).const_sub 1
    rw [mul_zero, sub_zero] at h2
    refine h2.congr' ?_
    filter_upwards [Ici_mem_atTop mu] with x hx
    rw [laplaceCdf, if_neg (not_lt.2 hx)]; rfl
  · unfold laplaceCdf
    simp_rw [← not_le, ite_not]
    refine Continuous.if_le (by fun_prop) (by fun_prop) (by fun_prop) (by fun_prop) ?_
    intro x hx
    subst hx
    norm_num

/-! ### beta -/

noncomputable def betaCdf (a b x : ℝ) : ℝ := if x ≤ 0 then 0 else if 1 ≤ x then 1 else betaI a b x

theorem betaCdf_eq {a b : ℝ} (ha : 0 < a) (hb : 0 < b) (x : ℝ) :
    betaCdf a b x = betaI a b (max 0 (min 1 x)) := by
  rw [betaCdf]
  split_ifs with h1 h2
  · rw [max_eq_left ((min_le_right _ _).trans h1), betaI_zero]
  · rw [min_eq_left h2, max_eq_right zero_le_one, betaI_one ha hb]
  · rw [min_eq_right (by linarith), max_eq_right (by linarith)]

theorem isCdf_beta {a b : ℝ} (ha : 0 < a) (hb : 0 < b) : IsCdf (betaCdf a b) (betaPdf a b) := by
  have hB := beta_pos ha hb
  apply isCdf_of_deriv _ {0, 1}
  · intro x hx
    simp only [Finset.mem_insert, Finset.mem_singleton, not_or] at hx
    rcases lt_or_gt_of_ne hx.1 with h1 | h1
    · rw [betaPdf, if_neg (by intro c; linarith [c.1])]
      refine (hasDerivAt_const x (0 : ℝ)).congr_of_eventuallyEq ?_
      filter_upwards [Iio_mem_nhds h1] with y hy
      rw [betaCdf, if_pos (le_of_lt hy)]
    · rcases lt_or_gt_of_ne hx.2 with h2 | h2
      · rw [betaPdf, if_pos ⟨h1, h2⟩]
        refine HasDerivAt.congr_of_eventuallyEq (f := betaI a b) ?_ ?_
        · refine (hasDerivAt_betaI ha hb h1 h2).congr_deriv ?_; ring
        · filter_upwards [Ioo_mem_nhds h1 h2] with y hy
          rw [betaCdf, if_neg (not_le.2 hy.1), if_neg (not_le.2 hy.2)]
      · rw [betaPdf, if_neg (by intro c; linarith [c.2])]
        refine (hasDerivAt_const x (1 : ℝ)).congr_of_eventuallyEq ?_
        filter_upwards [Ioi_mem_nhds h2] with y hy
        have hy : 1 < y := hy
        rw [betaCdf, if_neg (by linarith), if_pos hy.le]
  · intro x _
    rw [betaPdf]; split_ifs with h
    · have h1 := h.1
      have h2 : 0 < 1 - x := by linarith [h.2]
      positivity
    · exact le_rfl
  · refine tendsto_const_nhds.congr' ?_
    filter_upwards [Iic_mem_atBot 0] with x hx
    rw [betaCdf, if_pos (show x ≤ 0 from hx)]
  · refine tendsto_const_nhds.congr' ?_
    filter_upwards [Ici_mem_atTop 1] with x hx
    have hx : 1 ≤ x := hx
    rw [betaCdf, if_neg (by linarith), if_pos hx]
  · have : betaCdf a b = fun x => betaI a b (max 0 (min 1 x)) := funext (betaCdf_eq ha hb)
    rw [this]
    exact (continuousOn_betaI ha hb).comp_continuous (by fun_prop)
      fun x => ⟨le_max_left _ _, max_le zero_le_one (min_le_left _ _)⟩

/-! ### gamma family -/

theorem tendsto_gammaP_zero {a : ℝ} (ha : 0 < a) : Tendsto (gammaP a) (𝓝[>] 0) (𝓝 0) := by
  have h := (continuousOn_gammaP ha) 0 (by simp)
  rw [ContinuousWithinAt, gammaP_zero] at h
  exact h.mono_left (nhdsWithin_mono _ Ioi_subset_Ici_self)

theorem tendsto_div_nhdsGT {c : ℝ} (hc : 0 < c) : Tendsto (fun x : ℝ => x / c) (𝓝[>] 0) (𝓝[>] 0) := by
  apply tendsto_nhdsWithin_of_tendsto_nhds_of_eventually_within
  · have : ContinuousAt (fun x : ℝ => x / c) 0 := by fun_prop
    have := this.tendsto.mono_left (nhdsWithin_le_nhds (s := Ioi 0))
    simpa using this
  · filter_upwards [self_mem_nhdsWithin] with x hx
    exact div_pos hx hc

theorem isCdf_gamma {k θ : ℝ} (hk : 0 < k) (hθ : 0 < θ) :
    IsCdf (fun x => if 0 < x then gammaP k (x / θ) else 0) (gammaPdf k θ) := by
  have hG := Real.Gamma_pos_of_pos hk
  have := isCdf_Ioi (G := fun x => gammaP k (x / θ))
    (g := fun x => x ^ (k - 1) * exp (-x / θ) / (θ ^ k * Gamma k)) ?_ ?_ ?_ ?_
  · exact this
  · intro x hx
    have h1 := (hasDerivAt_gammaP hk (div_pos hx hθ)).comp x ((hasDerivAt_id x).div_const θ)
    refine h1.congr_deriv ?_
    rw [Real.div_rpow hx.le hθ.le, Real.rpow_sub_one hθ.ne', neg_div]
    field_simp
  · intro x hx; positivity
  · exact (tendsto_gammaP_zero hk).comp (tendsto_div_nhdsGT hθ)
  · exact (tendsto_gammaP hk).comp (tendsto_id.atTop_div_const hθ)

theorem chisqPdf_eq (k x : ℝ) : chisqPdf k x = gammaPdf (k / 2) 2 x := rfl

theorem isCdf_chisq {k : ℝ} (hk : 0 < k) :
    IsCdf (fun x => if 0 < x then gammaP (k / 2) (x / 2) else 0) (chisqPdf k) :=
  isCdf_gamma (half_pos hk) two_pos

theorem isCdf_invgamma {α β : ℝ} (ha : 0 < α) (hb : 0 < β) :
    IsCdf (fun x => if 0 < x then 1 - gammaP α (β / x) else 0) (invgammaPdf α β) := by
  have hG := Real.Gamma_pos_of_pos ha
  have := isCdf_Ioi (G := fun x => 1 - gammaP α (β / x))
    (g := fun x => β ^ α / Gamma α * x ^ (-α - 1) * exp (-β / x)) ?_ ?_ ?_ ?_
  · exact this
  · intro x hx
    have hd : HasDerivAt (fun x => β / x) (-β / x ^ 2) x := by
      have := (hasDerivAt_inv hx.ne').const_mul β
      refine this.congr_deriv ?_
      field_simp
    have h1 := ((hasDerivAt_gammaP ha (div_pos hb hx)).comp x hd).const_sub 1
    refine h1.congr_deriv ?_
    rw [Real.div_rpow hb.le hx.le, Real.rpow_sub_one hb.ne', Real.rpow_sub_one hx.ne', neg_div, neg_div,
      Real.rpow_sub_one hx.ne', Real.rpow_neg hx.le]
    field_simp
  · intro x hx; positivity
  · have h1 : Tendsto (fun x : ℝ => β / x) (𝓝[>] 0) atTop := by
      simpa [div_eq_mul_inv] using tendsto_inv_nhdsGT_zero.const_mul_atTop hb
    simpa using ((tendsto_gammaP ha).comp h1).const_sub 1
  · have h1 : Tendsto (fun x : ℝ => β / x) atTop (𝓝[>] 0) := by
      apply tendsto_nhdsWithin_of_tendsto_nhds_of_eventually_within
      · exact tendsto_const_nhds.div_atTop tendsto_id
      · filter_upwards [Ioi_mem_atTop 0] with x hx
        exact div_pos hb hx
    simpa using ((tendsto_gammaP_zero ha).comp h1).const_sub 1

/-! ### Weibull -/

theorem isCdf_weibull {k θ : ℝ} (hk : 0 < k) (hθ : 0 < θ) :
    IsCdf (fun x => if 0 < x then 1 - exp (-(x / θ) ^ k) else 0) (weibullPdf k θ) := by
  have := isCdf_Ioi (G := fun x => 1 - exp (-(x / θ) ^ k))
    (g := fun x => k / θ * (x / θ) ^ (k - 1) * exp (-(x / θ) ^ k)) ?_ ?_ ?_ ?_
  · exact this
  · intro x hx
    have h1 := (((hasDerivAt_id x).div_const θ).rpow_const (p := k) (Or.inl (div_pos hx hθ).ne')).neg.exp.const_sub 1
    refine h1.congr_deriv ?_
    simp only [id, Pi.neg_apply]
    ring
  · intro x hx; positivity
  · have : ContinuousAt (fun x : ℝ => 1 - exp (-(x / θ) ^ k)) 0 :=
      continuousAt_const.sub (Real.continuous_exp.continuousAt.comp
        (ContinuousAt.rpow_const (by fun_prop) (Or.inr hk.le)).neg)
    have := this.tendsto.mono_left (nhdsWithin_le_nhds (s := Ioi 0))
    simpa [Real.zero_rpow hk.ne'] using this
  · have h1 : Tendsto (fun x : ℝ => -(x / θ) ^ k) atTop atBot :=
      tendsto_neg_atTop_atBot.comp ((tendsto_rpow_atTop hk).comp (tendsto_id.atTop_div_const hθ))
    simpa using (Real.tendsto_exp_atBot.comp h1).const_sub 1

end Stats

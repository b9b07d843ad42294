import Verif.Props.C08D
import Verif.Spec.Mix
import Verif.Props.C66
import Verif.Lemmas.RealCdf2
import Verif.Lemmas.Moment2
import Mathlib.Data.Nat.Choose.Vandermonde
import Mathlib.Analysis.SpecialFunctions.Exponential

/-! # C67: mixtures of the coded densities -/

set_option linter.unusedSectionVars false
open Classical MeasureTheory Set
namespace Stats
open Fl Spec
variable [Lib] [Ideal]

/-- If weight times kernel is `m` times a density `p` on `S`, and `p` has its whole mass there, the mixture is `m`. -/
theorem mixes_of {S : Set ℝ} (hS : MeasurableSet S) {w k : ℝ → Fl} {v : Fl} {f g p : ℝ → ℝ} {m : ℝ}
    (hp : Integrable p) (hp1 : ∫ x, p x = 1) (hp0 : ∀ x, x ∉ S → p x = 0)
    (hw : ∀ θ ∈ S, 0 < f θ ∧ w θ = fin (f θ)) (hk : ∀ θ ∈ S, 0 < g θ ∧ k θ = fin (g θ)) (hv : v = fin m)
    (h : ∀ θ ∈ S, f θ * g θ = m * p θ) : Mixes S w k v := by
  have e : ∀ θ ∈ S, toR (w θ) * toR (k θ) = m * p θ := fun θ hθ => by
    rw [(hw θ hθ).2, (hk θ hθ).2]; exact h θ hθ
  refine ⟨fun θ hθ => ⟨f θ, g θ, (hw θ hθ).1, (hk θ hθ).1, (hw θ hθ).2, (hk θ hθ).2⟩, ?_, ?_⟩
  · exact ((hp.const_mul m).integrableOn).congr_fun (fun θ hθ => (e θ hθ).symm) hS
  · rw [setIntegral_congr_fun hS e, integral_const_mul, setIntegral_eq_integral_of_forall_compl_eq_zero hp0, hp1, mul_one, hv]

/-- A normal mean with a normal distribution. -/
theorem C67_norm_norm (x m : ℝ) {s σ : ℝ} (hs : 0 < s) (hσ : 0 < σ) :
    Mixes univ (fun θ => dnorm (fin θ) (fin m) (fin s) false) (fun θ => dnorm (fin x) (fin θ) (fin σ) false)
      (dnorm (fin x) (fin m) (fin (√(s ^ 2 + σ ^ 2))) false) := by
  have hq : 0 < s ^ 2 + σ ^ 2 := by positivity
  have hr : 0 < √(s ^ 2 + σ ^ 2) := Real.sqrt_pos.2 hq
  have hsq : √(s ^ 2 + σ ^ 2) ^ 2 = s ^ 2 + σ ^ 2 := Real.sq_sqrt hq.le
  have ht : 0 < s * σ / √(s ^ 2 + σ ^ 2) := by positivity
  have hF := isCdf_norm ((m * σ ^ 2 + x * s ^ 2) / (s ^ 2 + σ ^ 2)) ht
  refine mixes_of MeasurableSet.univ hF.integrable hF.total (by simp)
    (fun θ _ => ⟨(C08_dnorm m hs θ trivial).1, (C08_dnorm m hs θ trivial).2.1⟩)
    (fun θ _ => ⟨(C08_dnorm θ hσ x trivial).1, (C08_dnorm θ hσ x trivial).2.1⟩) (C08_dnorm m hr x trivial).2.1 fun θ _ => ?_
  rw [normPdf, normPdf, normPdf, normPdf]
  have e : Real.exp (-((θ - m) ^ 2) / (2 * s ^ 2)) * Real.exp (-((x - θ) ^ 2) / (2 * σ ^ 2)) =
      Real.exp (-((x - m) ^ 2) / (2 * √(s ^ 2 + σ ^ 2) ^ 2)) *
      Real.exp (-((θ - (m * σ ^ 2 + x * s ^ 2) / (s ^ 2 + σ ^ 2)) ^ 2) / (2 * (s * σ / √(s ^ 2 + σ ^ 2)) ^ 2)) := by
    rw [← Real.exp_add, ← Real.exp_add]
    congr 1
    rw [div_pow, hsq]
    field_simp
    ring
  have e2 : 1 / (√(2 * Real.pi) * s) * (1 / (√(2 * Real.pi) * σ)) =
      1 / (√(2 * Real.pi) * √(s ^ 2 + σ ^ 2)) * (1 / (√(2 * Real.pi) * (s * σ / √(s ^ 2 + σ ^ 2)))) := by
    field_simp
  calc _ = (1 / (√(2 * Real.pi) * s) * (1 / (√(2 * Real.pi) * σ))) *
        (Real.exp (-((θ - m) ^ 2) / (2 * s ^ 2)) * Real.exp (-((x - θ) ^ 2) / (2 * σ ^ 2))) := by ring
    _ = _ := by rw [e, e2]; ring

/-- A normal variance with an inverse gamma distribution: Student's t. -/
theorem C67_norm_invgamma_t (x : ℝ) {ν : ℝ} (hν : Lib.eps ≤ ν) :
    Mixes (Ioi 0) (fun v => dinvgamma (fin v) (fin (ν / 2)) (fin (ν / 2)) false)
      (fun v => dnorm (fin x) (fin 0) (fin (√v)) false) (dt (fin x) (fin ν) false) := by
  have hν0 : 0 < ν := Lib.eps_pos.trans_le hν
  have ha : 0 < ν / 2 := by positivity
  have ha' : 0 < ν / 2 + 1 / 2 := by positivity
  have hb' : 0 < ν / 2 + x ^ 2 / 2 := by positivity
  have hF := isCdf_invgamma ha' hb'
  refine mixes_of measurableSet_Ioi hF.integrable hF.total (fun v hv => by rw [invgammaPdf]; exact if_neg hv)
    (fun v hv => ⟨(C08_dinvgamma ha ha v hv).1, (C08_dinvgamma ha ha v hv).2.1⟩)
    (fun v hv => ⟨(C08_dnorm 0 (Real.sqrt_pos.2 hv) x trivial).1, (C08_dnorm 0 (Real.sqrt_pos.2 hv) x trivial).2.1⟩)
    (C08_dt hν x trivial).2.1 fun v hv => ?_
  have hv : 0 < v := hv
  have hG := Real.Gamma_pos_of_pos ha
  have hG' := Real.Gamma_pos_of_pos ha'
  have e1 : v ^ (-(ν / 2 + 1 / 2) - 1) = v ^ (-(ν / 2) - 1) * (1 / √v) := by
    rw [Real.sqrt_eq_rpow, one_div (v ^ _), ← Real.rpow_neg hv.le, ← Real.rpow_add hv]; congr 1; ring
  have e2 : Real.exp (-(ν / 2 + x ^ 2 / 2) / v) = Real.exp (-(ν / 2) / v) * Real.exp (-((x - 0) ^ 2) / (2 * √v ^ 2)) := by
    rw [← Real.exp_add, Real.sq_sqrt hv.le]; congr 1; field_simp; ring
  have hw : 0 < 1 + x ^ 2 / ν := by positivity
  have e3 : (ν / 2 + x ^ 2 / 2) ^ (ν / 2 + 1 / 2) = (ν / 2) ^ (ν / 2) * √(ν / 2) * (1 + x ^ 2 / ν) ^ ((ν + 1) / 2) := by
    have : ν / 2 + x ^ 2 / 2 = ν / 2 * (1 + x ^ 2 / ν) := by field_simp
    rw [this, Real.mul_rpow ha.le hw.le, Real.rpow_add ha, Real.sqrt_eq_rpow (ν / 2)]
    congr 2
    ring
  have e4 : √(ν * Real.pi) * 1 = √(ν / 2) * √(2 * Real.pi) := by
    rw [mul_one, ← Real.sqrt_mul (by positivity)]; congr 1; ring
  rw [invgammaPdf, invgammaPdf, normPdf, tPdf, if_pos hv, if_pos hv, e1, e2, e3, Real.rpow_neg hw.le]
  rw [mul_one] at e4
  rw [e4, show (ν + 1) / 2 = ν / 2 + 1 / 2 by ring]
  have h1 : 0 < √(ν / 2) := by positivity
  have h2 : 0 < (1 + x ^ 2 / ν) ^ (ν / 2 + 1 / 2) := by positivity
  field_simp

/-- The same with a chi-squared variable in the denominator. -/
theorem C67_norm_chisq_t (x : ℝ) {ν : ℝ} (hν : Lib.eps ≤ ν) :
    Mixes (Ioi 0) (fun u => dchisq (fin u) (fin ν) false)
      (fun u => dnorm (fin x) (fin 0) (fin (√(ν / u))) false) (dt (fin x) (fin ν) false) := by
  have hν0 : 0 < ν := Lib.eps_pos.trans_le hν
  have ha : 0 < ν / 2 := by positivity
  have ha' : 0 < ν / 2 + 1 / 2 := by positivity
  have hw : 0 < 1 + x ^ 2 / ν := by positivity
  have hb' : 0 < 2 / (1 + x ^ 2 / ν) := by positivity
  have hF := isCdf_gamma ha' hb'
  have hpos : ∀ u ∈ Ioi (0 : ℝ), 0 < √(ν / u) := fun u hu => Real.sqrt_pos.2 (div_pos hν0 hu)
  refine mixes_of measurableSet_Ioi hF.integrable hF.total (fun v hv => by rw [gammaPdf]; exact if_neg hv)
    (fun v hv => ⟨(C08_dchisq hν0 v hv).1, (C08_dchisq hν0 v hv).2.1⟩)
    (fun v hv => ⟨(C08_dnorm 0 (hpos v hv) x trivial).1, (C08_dnorm 0 (hpos v hv) x trivial).2.1⟩)
    (C08_dt hν x trivial).2.1 fun u hu => ?_
  have hu : 0 < u := hu
  have hG := Real.Gamma_pos_of_pos ha
  have hG' := Real.Gamma_pos_of_pos ha'
  have e1 : u ^ (ν / 2 + 1 / 2 - 1) = u ^ (ν / 2 - 1) * √u := by
    rw [Real.sqrt_eq_rpow, ← Real.rpow_add hu]; congr 1; ring
  have e2 : Real.exp (-u / (2 / (1 + x ^ 2 / ν))) = Real.exp (-u / 2) * Real.exp (-((x - 0) ^ 2) / (2 * √(ν / u) ^ 2)) := by
    rw [← Real.exp_add, Real.sq_sqrt (by positivity)]; congr 1; field_simp; ring
  have e3 : (2 / (1 + x ^ 2 / ν)) ^ (ν / 2 + 1 / 2) = 2 ^ (ν / 2) * √2 / (1 + x ^ 2 / ν) ^ (ν / 2 + 1 / 2) := by
    rw [Real.div_rpow two_pos.le hw.le, Real.rpow_add two_pos, Real.sqrt_eq_rpow]
  rw [chisqPdf, gammaPdf, normPdf, tPdf, if_pos hu, if_pos hu, e1, e2, e3, Real.rpow_neg hw.le,
    show (ν + 1) / 2 = ν / 2 + 1 / 2 by ring, Real.sqrt_div hν0.le, Real.sqrt_mul hν0.le, Real.sqrt_mul two_pos.le]
  have h2 : 0 < (1 + x ^ 2 / ν) ^ (ν / 2 + 1 / 2) := by positivity
  have h3 : 0 < √ν := by positivity
  have h4 : 0 < √u := by positivity
  have h5 : 0 < (2 : ℝ) ^ (ν / 2) := by positivity
  field_simp

/-- An exponential rate with a gamma distribution: an F distribution. -/
theorem C67_exp_gamma_f {k θ x : ℝ} (hk : Lib.eps ≤ 2 * k) (hθ : Lib.eps ≤ θ) (hx : 0 < x) :
    Mixes (Ioi 0) (fun l => dgamma (fin l) (fin k) (fin θ) false) (fun l => dexp (fin x) (fin l) false)
      (fin (k * θ) * df (fin (k * θ * x)) (fin 2) (fin (2 * k)) false) := by
  have he := Lib.eps_pos
  have hk0 : 0 < k := by linarith
  have hθ0 : 0 < θ := by linarith
  have h1 : 0 < 1 + θ * x := by positivity
  have hF := isCdf_gamma (by positivity : 0 < k + 1) (by positivity : 0 < θ / (1 + θ * x))
  have h2 : Lib.eps ≤ 2 := Lib.eps_le.trans (by norm_num)
  have hd : df (fin (k * θ * x)) (fin 2) (fin (2 * k)) false = fin _ := (C08_df h2 hk (k * θ * x) (by simp; positivity)).2.1
  refine mixes_of (m := k * θ * fPdf 2 (2 * k) (k * θ * x)) measurableSet_Ioi hF.integrable hF.total
    (fun v hv => by rw [gammaPdf]; exact if_neg hv)
    (fun v hv => ⟨(C08_dgamma hk0 hθ v hv).1, (C08_dgamma hk0 hθ v hv).2.1⟩)
    (fun v hv => ⟨(C08_dexp hv x hx.le).1, (C08_dexp hv x hx.le).2.1⟩) (by rw [hd, ifin_mul]) fun l hl => ?_
  have hl : 0 < l := hl
  have hG := Real.Gamma_pos_of_pos hk0
  have e0 : fPdf 2 (2 * k) (k * θ * x) = (1 + θ * x) ^ (-(k + 1)) := by
    rw [fPdf, if_pos (by positivity), Spec.beta, show (2 : ℝ) / 2 = 1 by norm_num, show 2 * k / 2 = k by ring, Real.Gamma_one,
      add_comm 1 k, Real.Gamma_add_one hk0.ne', Real.rpow_one, sub_self, Real.rpow_zero,
      show 2 / (2 * k) * (k * θ * x) = θ * x by field_simp, show (2 + 2 * k) / 2 = k + 1 by ring]
    field_simp
  have e1 : l ^ (k + 1 - 1) = l ^ (k - 1) * l := by
    rw [← Real.rpow_add_one hl.ne']; congr 1; ring
  have e2 : Real.exp (-l / (θ / (1 + θ * x))) = Real.exp (-l / θ) * Real.exp (-l * x) := by
    rw [← Real.exp_add]; congr 1; field_simp; ring
  rw [e0, gammaPdf, gammaPdf, expPdf, if_pos hl, if_pos hl, if_pos hx.le, e1, e2, Real.div_rpow hθ0.le h1.le,
    Real.rpow_neg h1.le, Real.rpow_add_one hθ0.ne', Real.Gamma_add_one hk0.ne']
  have h5 : 0 < θ ^ k := by positivity
  have h6 : 0 < (1 + θ * x) ^ (k + 1) := by positivity
  field_simp

/-- The F distribution: an inverse gamma rate with a gamma distribution. -/
theorem C67_invgamma_gamma_f {d1 d2 x : ℝ} (h1 : Lib.eps ≤ d1) (h2 : Lib.eps ≤ d2) (h1' : Lib.eps ≤ 2 / d1) (hx : 0 < x) :
    Mixes (Ioi 0) (fun u => dgamma (fin u) (fin (d1 / 2)) (fin (2 / d1)) false)
      (fun u => dinvgamma (fin x) (fin (d2 / 2)) (fin (d2 / 2 * u)) false) (df (fin x) (fin d1) (fin d2) false) := by
  have he := Lib.eps_pos
  have p1 : 0 < d1 := by linarith
  have p2 : 0 < d2 := by linarith
  have hc : 0 < d1 / 2 + d2 / (2 * x) := by positivity
  have hF := isCdf_gamma (by positivity : 0 < d1 / 2 + d2 / 2) (by positivity : 0 < (d1 / 2 + d2 / (2 * x))⁻¹)
  have hr : ∀ u ∈ Ioi (0 : ℝ), 0 < d2 / 2 * u := fun u hu => by have : 0 < u := hu; positivity
  refine mixes_of measurableSet_Ioi hF.integrable hF.total (fun v hv => by rw [gammaPdf]; exact if_neg hv)
    (fun v hv => ⟨(C08_dgamma (half_pos p1) h1' v hv).1, (C08_dgamma (half_pos p1) h1' v hv).2.1⟩)
    (fun v hv => ⟨(C08_dinvgamma (half_pos p2) (hr v hv) x hx).1, (C08_dinvgamma (half_pos p2) (hr v hv) x hx).2.1⟩)
    (C08_df h1 h2 x hx).2.1 fun u hu => ?_
  have hu : 0 < u := hu
  have g1 := Real.Gamma_pos_of_pos (half_pos p1)
  have g2 := Real.Gamma_pos_of_pos (half_pos p2)
  have g3 := Real.Gamma_pos_of_pos (by positivity : 0 < d1 / 2 + d2 / 2)
  have e1 : u ^ (d1 / 2 + d2 / 2 - 1) = u ^ (d1 / 2 - 1) * u ^ (d2 / 2) := by
    rw [← Real.rpow_add hu]; congr 1; ring
  have e2 : Real.exp (-u / (d1 / 2 + d2 / (2 * x))⁻¹) = Real.exp (-u / (2 / d1)) * Real.exp (-(d2 / 2 * u) / x) := by
    rw [← Real.exp_add]; congr 1; field_simp; ring
  have hq : 0 < 1 + d1 / d2 * x := by positivity
  have e3 : d1 / 2 + d2 / (2 * x) = d2 / 2 / x * (1 + d1 / d2 * x) := by field_simp; ring
  have e4 : (d1 / 2 + d2 / (2 * x))⁻¹ ^ (d1 / 2 + d2 / 2) =
      (1 + d1 / d2 * x) ^ (-((d1 + d2) / 2)) * (x ^ (d1 / 2) * x ^ (d2 / 2)) / ((d2 / 2) ^ (d1 / 2) * (d2 / 2) ^ (d2 / 2)) := by
    rw [e3, Real.inv_rpow (by positivity), Real.mul_rpow (by positivity) hq.le, Real.div_rpow (by positivity) hx.le,
      Real.rpow_neg hq.le, Real.rpow_add hx, Real.rpow_add (half_pos p2), show (d1 + d2) / 2 = d1 / 2 + d2 / 2 by ring]
    have a1 : 0 < (1 + d1 / d2 * x) ^ (d1 / 2 + d2 / 2) := by positivity
    have a2 : 0 < (d2 / 2) ^ (d1 / 2) := by positivity
    have a3 : 0 < (d2 / 2) ^ (d2 / 2) := by positivity
    have a4 : 0 < x ^ (d1 / 2) := by positivity
    have a5 : 0 < x ^ (d2 / 2) := by positivity
    field_simp
  have e5 : (d1 / d2) ^ (d1 / 2) = (d1 / 2) ^ (d1 / 2) / (d2 / 2) ^ (d1 / 2) := by
    rw [← Real.div_rpow (by positivity) (by positivity)]; congr 1; field_simp
  have e6 : (2 / d1) ^ (d1 / 2) = 1 / (d1 / 2) ^ (d1 / 2) := by
    rw [one_div, ← Real.inv_rpow (by positivity)]; congr 1; field_simp
  have e7 : x ^ (-(d2 / 2) - 1) = 1 / (x ^ (d2 / 2) * x) := by
    rw [Real.rpow_sub hx, Real.rpow_neg hx.le, Real.rpow_one]; field_simp
  have e8 : x ^ (d1 / 2 - 1) = x ^ (d1 / 2) / x := by rw [Real.rpow_sub hx, Real.rpow_one]
  rw [gammaPdf, gammaPdf, invgammaPdf, fPdf, if_pos hu, if_pos hu, if_pos hx, if_pos hx, e1, e2, e4, e5, e6, e7, e8, Spec.beta,
    Real.mul_rpow (by positivity) hu.le]
  have a1 : 0 < (1 + d1 / d2 * x) ^ (-((d1 + d2) / 2)) := by positivity
  have a2 : 0 < (d2 / 2) ^ (d1 / 2) := by positivity
  have a3 : 0 < (d2 / 2) ^ (d2 / 2) := by positivity
  have a4 : 0 < x ^ (d1 / 2) := by positivity
  have a5 : 0 < x ^ (d2 / 2) := by positivity
  have a6 : 0 < (d1 / 2) ^ (d1 / 2) := by positivity
  have a7 : 0 < u ^ (d1 / 2 - 1) := by positivity
  generalize (1 + d1 / d2 * x) ^ (-((d1 + d2) / 2)) = B at *
  field_simp

/-- A normal variance with an exponential distribution: Laplace. -/
theorem C67_norm_exp_laplace (x μ : ℝ) {b : ℝ} (hb : 0 < b) :
    Mixes (Ioi 0) (fun v => dexp (fin v) (fin (1 / (2 * b ^ 2))) false)
      (fun v => dnorm (fin x) (fin μ) (fin (√v)) false) (dlaplace (fin x) (fin μ) (fin b) false) := by
  have hr : 0 < 1 / (2 * b ^ 2) := by positivity
  by_cases hx : x = μ
  · subst hx
    have hF := isCdf_gamma (by norm_num : (0 : ℝ) < 1 / 2) (by positivity : 0 < 2 * b ^ 2)
    refine mixes_of measurableSet_Ioi hF.integrable hF.total (fun v hv => by rw [gammaPdf]; exact if_neg hv)
      (fun v hv => ⟨(C08_dexp hr v (Ioi_subset_Ici_self hv)).1, (C08_dexp hr v (Ioi_subset_Ici_self hv)).2.1⟩)
      (fun v hv => ⟨(C08_dnorm x (Real.sqrt_pos.2 hv) x trivial).1, (C08_dnorm x (Real.sqrt_pos.2 hv) x trivial).2.1⟩)
      (C08_dlaplace x hb x trivial).2.1 fun v hv => ?_
    have hv : 0 < v := hv
    have h3 : 0 < √v := by positivity
    have e1 : v ^ ((1 : ℝ) / 2 - 1) = 1 / √v := by
      rw [Real.sqrt_eq_rpow, one_div (v ^ _), ← Real.rpow_neg hv.le]; congr 1; norm_num
    have e2 : Real.exp (-v / (2 * b ^ 2)) = Real.exp (-(1 / (2 * b ^ 2)) * v) := by congr 1; ring
    have e3 : (2 * b ^ 2) ^ ((1 : ℝ) / 2) = √2 * b := by
      rw [← Real.sqrt_eq_rpow, Real.sqrt_mul two_pos.le, Real.sqrt_sq hb.le]
    have h4 : √2 * √2 = 2 := Real.mul_self_sqrt two_pos.le
    rw [expPdf, normPdf, laplacePdf, gammaPdf, if_pos hv.le, if_pos hv, e1, e2, e3, Real.Gamma_one_half_eq, sub_self,
      Real.sqrt_mul two_pos.le]
    simp only [abs_zero, neg_zero, zero_div, Real.exp_zero, ne_eq, OfNat.ofNat_ne_zero, not_false_eq_true, zero_pow]
    field_simp
  have hd : 0 < |x - μ| := abs_pos.2 (sub_ne_zero.2 hx)
  have hm : 0 < b * |x - μ| := by positivity
  have hl : 0 < (x - μ) ^ 2 := by rw [← sq_abs]; positivity
  have hF := isCdf_invgauss hm hl
  obtain ⟨hi, -, hmean, -⟩ := moments_invgauss hm hl
  have hi' := (hF.integrable_dens (fun v => v)).1 hi
  have hm' := (hF.integral_dens (fun v => v)).symm.trans hmean
  refine mixes_of (p := fun v => v * invgaussPdf (b * |x - μ|) ((x - μ) ^ 2) v / (b * |x - μ|)) measurableSet_Ioi
    (hi'.div_const _) (by rw [integral_div, hm', div_self hm.ne'])
    (fun v hv => by
      have h : invgaussPdf (b * |x - μ|) ((x - μ) ^ 2) v = 0 := if_neg hv
      simp only [h, mul_zero, zero_div])
    (fun v hv => ⟨(C08_dexp hr v (Ioi_subset_Ici_self hv)).1, (C08_dexp hr v (Ioi_subset_Ici_self hv)).2.1⟩)
    (fun v hv => ⟨(C08_dnorm μ (Real.sqrt_pos.2 hv) x trivial).1, (C08_dnorm μ (Real.sqrt_pos.2 hv) x trivial).2.1⟩)
    (C08_dlaplace μ hb x trivial).2.1 fun v hv => ?_
  have hv : 0 < v := hv
  rw [expPdf, normPdf, laplacePdf, invgaussPdf, if_pos hv.le, if_pos hv]
  have e1 : √((x - μ) ^ 2 / (2 * Real.pi * v ^ 3)) = |x - μ| / (√(2 * Real.pi) * (v * √v)) := by
    rw [Real.sqrt_div hl.le, Real.sqrt_sq_eq_abs, Real.sqrt_mul (by positivity : (0 : ℝ) ≤ 2 * Real.pi), show v ^ 3 = v ^ 2 * v by ring,
      Real.sqrt_mul (by positivity : 0 ≤ v ^ 2), Real.sqrt_sq hv.le]
  have e2 : Real.exp (-(1 / (2 * b ^ 2)) * v) * Real.exp (-((x - μ) ^ 2) / (2 * √v ^ 2)) = Real.exp (-|x - μ| / b) *
      Real.exp (-((x - μ) ^ 2 * (v - b * |x - μ|) ^ 2) / (2 * (b * |x - μ|) ^ 2 * v)) := by
    rw [← Real.exp_add, ← Real.exp_add, Real.sq_sqrt hv.le]
    congr 1
    rw [← sq_abs (x - μ)]
    field_simp
    ring
  rw [e1]
  have h3 : 0 < √v := by positivity
  calc _ = 1 / (2 * b ^ 2) * (1 / (√(2 * Real.pi) * √v)) *
        (Real.exp (-(1 / (2 * b ^ 2)) * v) * Real.exp (-((x - μ) ^ 2) / (2 * √v ^ 2))) := by ring
    _ = _ := by rw [e2]; field_simp

/-! ### Sums: convolutions and thinning -/

/-- Sum of two normal variables. -/
theorem C67_norm_conv (x m₁ m₂ : ℝ) {s₁ s₂ : ℝ} (h1 : 0 < s₁) (h2 : 0 < s₂) :
    Mixes univ (fun t => dnorm (fin t) (fin m₁) (fin s₁) false) (fun t => dnorm (fin (x - t)) (fin m₂) (fin s₂) false)
      (dnorm (fin x) (fin (m₁ + m₂)) (fin (√(s₁ ^ 2 + s₂ ^ 2))) false) := by
  have hr : 0 < √(s₁ ^ 2 + s₂ ^ 2) := by positivity
  have e1 : ∀ t, dnorm (fin (x - t)) (fin m₂) (fin s₂) false = dnorm (fin (x - m₂)) (fin t) (fin s₂) false := fun t => by
    have a := (C08_dnorm m₂ h2 (x - t) trivial).2.1
    have b := (C08_dnorm t h2 (x - m₂) trivial).2.1
    refine a.trans (Eq.trans ?_ b.symm)
    rw [normPdf, normPdf, show x - t - m₂ = x - m₂ - t by ring]
  have e2 : dnorm (fin x) (fin (m₁ + m₂)) (fin (√(s₁ ^ 2 + s₂ ^ 2))) false =
      dnorm (fin (x - m₂)) (fin m₁) (fin (√(s₁ ^ 2 + s₂ ^ 2))) false := by
    have a := (C08_dnorm (m₁ + m₂) hr x trivial).2.1
    have b := (C08_dnorm m₁ hr (x - m₂) trivial).2.1
    refine a.trans (Eq.trans ?_ b.symm)
    rw [normPdf, normPdf, show x - (m₁ + m₂) = x - m₂ - m₁ by ring]
  simp only [e1, e2]
  exact C67_norm_norm (x - m₂) m₁ h1 h2

/-- Sum of two gamma variables with the same scale. -/
theorem C67_gamma_conv {a b θ x : ℝ} (ha : 0 < a) (hb : 0 < b) (hθ : Lib.eps ≤ θ) (hx : 0 < x) :
    Mixes (Ioo 0 x) (fun t => dgamma (fin t) (fin a) (fin θ) false) (fun t => dgamma (fin (x - t)) (fin b) (fin θ) false)
      (dgamma (fin x) (fin (a + b)) (fin θ) false) := by
  have hθ0 : 0 < θ := Lib.eps_pos.trans_le hθ
  have hF := isCdf_beta ha hb
  have hsub : ∀ t ∈ Ioo 0 x, 0 < x - t := fun t ht => sub_pos.2 ht.2
  refine mixes_of (p := fun t => betaPdf a b (t / x) / x) measurableSet_Ioo ((hF.integrable.comp_div hx.ne').div_const _)
    (by rw [integral_div, Measure.integral_comp_div (fun y => betaPdf a b y), hF.total, abs_of_pos hx, smul_eq_mul,
          mul_one, div_self hx.ne'])
    (fun t ht => ?_)
    (fun t ht => ⟨(C08_dgamma ha hθ t ht.1).1, (C08_dgamma ha hθ t ht.1).2.1⟩)
    (fun t ht => ⟨(C08_dgamma hb hθ _ (hsub t ht)).1, (C08_dgamma hb hθ _ (hsub t ht)).2.1⟩)
    (C08_dgamma (add_pos ha hb) hθ x hx).2.1 fun t ht => ?_
  · rw [betaPdf, if_neg, zero_div]
    rintro ⟨h1, h2⟩
    exact ht ⟨(div_pos_iff_of_pos_right hx).1 h1, (div_lt_one hx).1 h2⟩
  · have ht0 : 0 < t := ht.1
    have hs := hsub t ht
    have g1 := Real.Gamma_pos_of_pos ha
    have g2 := Real.Gamma_pos_of_pos hb
    have g3 := Real.Gamma_pos_of_pos (add_pos ha hb)
    have e1 : 1 - t / x = (x - t) / x := by field_simp
    have e2 : x ^ (a + b - 1) = x ^ (a - 1) * x ^ (b - 1) * x := by
      rw [← Real.rpow_add hx, ← Real.rpow_add_one hx.ne']; congr 1; ring
    have e3 : Real.exp (-x / θ) = Real.exp (-t / θ) * Real.exp (-(x - t) / θ) := by
      rw [← Real.exp_add]; congr 1; ring
    rw [gammaPdf, gammaPdf, gammaPdf, betaPdf, if_pos ht0, if_pos hs, if_pos hx,
      if_pos ⟨by positivity, (div_lt_one hx).2 ht.2⟩, e1, Real.div_rpow ht0.le hx.le, Real.div_rpow hs.le hx.le, e2, e3,
      Spec.beta, Real.rpow_add hθ0]
    have a1 : 0 < x ^ (a - 1) := by positivity
    have a2 : 0 < x ^ (b - 1) := by positivity
    have a3 : 0 < θ ^ a := by positivity
    have a4 : 0 < θ ^ b := by positivity
    field_simp

/-- Sum of two chi-squared variables. -/
theorem C67_chisq_conv {m n x : ℝ} (hm : 0 < m) (hn : 0 < n) (hx : 0 < x) :
    Mixes (Ioo 0 x) (fun t => dchisq (fin t) (fin m) false) (fun t => dchisq (fin (x - t)) (fin n) false)
      (dchisq (fin x) (fin (m + n)) false) := by
  have e : ∀ {k y : ℝ}, 0 < k → 0 < y → dchisq (fin y) (fin k) false = dgamma (fin y) (fin (k / 2)) (fin 2) false := by
    intro k y hk hy
    refine (C08_dchisq hk y hy).2.1.trans (Eq.trans ?_ (C08_dgamma (half_pos hk) (Lib.eps_le.trans (by norm_num)) y hy).2.1.symm)
    rw [chisqPdf, gammaPdf]
  have h := C67_gamma_conv (half_pos hm) (half_pos hn) (Lib.eps_le.trans (by norm_num) : Lib.eps ≤ 2) hx
  have e1 : ∀ t ∈ Ioo 0 x, dchisq (fin t) (fin m) false = dgamma (fin t) (fin (m / 2)) (fin 2) false :=
    fun t ht => e hm ht.1
  have e2 : ∀ t ∈ Ioo 0 x, dchisq (fin (x - t)) (fin n) false = dgamma (fin (x - t)) (fin (n / 2)) (fin 2) false :=
    fun t ht => e hn (sub_pos.2 ht.2)
  rw [e (add_pos hm hn) hx, add_div]
  obtain ⟨h1, h2, h3⟩ := h
  refine ⟨fun t ht => by simp only [e1 t ht, e2 t ht]; exact h1 t ht, h2.congr_fun (fun t ht => ?_) measurableSet_Ioo, ?_⟩
  · simp only [e1 t ht, e2 t ht]
  · rw [h3]
    congr 1
    exact setIntegral_congr_fun measurableSet_Ioo fun t ht => by simp only [e1 t ht, e2 t ht]

theorem mixesSum_of {w k : ℕ → Fl} {v : Fl} {f g : ℕ → ℝ} {r : ℝ} (hw : ∀ n, 0 ≤ f n ∧ w n = fin (f n))
    (hk : ∀ n, 0 ≤ g n ∧ k n = fin (g n)) (hv : v = fin r) (h : HasSum (fun n => f n * g n) r) : MixesSum w k v := by
  refine ⟨fun n => ⟨f n, g n, (hw n).1, (hk n).1, (hw n).2, (hk n).2⟩, r, ?_, hv⟩
  convert h using 2 with n
  rw [(hw n).2, (hk n).2]; rfl

/-- A Poisson number of trials with success probability `p`: thinning. -/
theorem C67_pois_thinning {l p : ℝ} (hl : 0 ≤ l) (h0 : 0 ≤ p) (h1 : p ≤ 1) (x : ℕ) :
    MixesSum (fun n => dpois (n : ℤ) (fin l) false) (fun n => dbinom (x : ℤ) (n : ℤ) (fin p) false)
      (dpois (x : ℤ) (fin (l * p)) false) := by
  refine mixesSum_of (fun n => ⟨(C08_dpois hl (n : ℤ)).1, (C08_dpois hl (n : ℤ)).2.1⟩)
    (fun n => ⟨(C08_dbinom n h0 h1 (x : ℤ)).1, (C08_dbinom n h0 h1 (x : ℤ)).2.1⟩)
    (C08_dpois (mul_nonneg hl h0) (x : ℤ)).2.1 ?_
  have hinj : Function.Injective fun j : ℕ => x + j := add_right_injective x
  rw [← hinj.hasSum_iff]
  · have hs := NormedSpace.expSeries_div_hasSum_exp (𝔸 := ℝ) (l * (1 - p))
    rw [← Real.exp_eq_exp_ℝ] at hs
    have hs' := hs.mul_left (Real.exp (-l) * (l * p) ^ x / x.factorial)
    have er : Real.exp (-l) * (l * p) ^ x / x.factorial * Real.exp (l * (1 - p)) = poisPmf (l * p) (x : ℤ) := by
      rw [poisPmf, if_pos (by omega), Int.toNat_natCast]
      have : Real.exp (-(l * p)) = Real.exp (-l) * Real.exp (l * (1 - p)) := by rw [← Real.exp_add]; congr 1; ring
      rw [this]; ring
    rw [er] at hs'
    refine (congrArg (HasSum · _) (funext fun j => ?_)).mpr hs'
    show poisPmf l ((x + j : ℕ) : ℤ) * binomPmf (x + j) p (x : ℤ) = _
    rw [poisPmf, if_pos (by omega), binomPmf, if_pos ⟨by omega, by push_cast; omega⟩, Int.toNat_natCast, Int.toNat_natCast]
    have hc : ((x + j).choose x : ℝ) = (x + j).factorial / (x.factorial * j.factorial) := by
      rw [Nat.cast_choose ℝ (Nat.le_add_right x j), Nat.add_sub_cancel_left]
    rw [hc, Nat.add_sub_cancel_left, mul_pow, mul_pow, pow_add]
    have a1 : ((x + j).factorial : ℝ) ≠ 0 := by positivity
    have a2 : (x.factorial : ℝ) ≠ 0 := by positivity
    have a3 : (j.factorial : ℝ) ≠ 0 := by positivity
    field_simp
  · intro n hn
    have : n < x := by
      by_contra hc
      exact hn ⟨n - x, by show x + (n - x) = n; omega⟩
    rw [binomPmf, if_neg (by omega), mul_zero]

/-- Sum of two Poisson variables. -/
theorem C67_pois_conv {l m : ℝ} (hl : 0 ≤ l) (hm : 0 ≤ m) (x : ℕ) :
    MixesSum (fun i => dpois (i : ℤ) (fin l) false) (fun i => dpois ((x : ℤ) - i) (fin m) false)
      (dpois (x : ℤ) (fin (l + m)) false) := by
  refine mixesSum_of (fun n => ⟨(C08_dpois hl (n : ℤ)).1, (C08_dpois hl (n : ℤ)).2.1⟩)
    (fun n => ⟨(C08_dpois hm ((x : ℤ) - n)).1, (C08_dpois hm ((x : ℤ) - n)).2.1⟩)
    (C08_dpois (add_nonneg hl hm) (x : ℤ)).2.1 ?_
  have h : HasSum (fun i : ℕ => poisPmf l i * poisPmf m ((x : ℤ) - i))
      (∑ i ∈ Finset.range (x + 1), poisPmf l i * poisPmf m ((x : ℤ) - i)) := by
    refine hasSum_sum_of_ne_finset_zero fun i hi => ?_
    have : x < i := by simpa using hi
    rw [poisPmf, poisPmf, if_neg (by omega : ¬ 0 ≤ (x : ℤ) - i), mul_zero]
  convert h using 1
  rw [poisPmf, if_pos (by omega), Int.toNat_natCast, add_pow, neg_add, Real.exp_add, Finset.sum_mul, Finset.sum_div]
  refine Finset.sum_congr rfl fun i hi => ?_
  have hi : i ≤ x := by simpa [Nat.lt_succ_iff] using hi
  rw [poisPmf, poisPmf, if_pos (by omega), if_pos (by omega), Int.toNat_natCast, show ((x : ℤ) - i).toNat = x - i by omega,
    Nat.cast_choose ℝ hi]
  have a1 : (x.factorial : ℝ) ≠ 0 := by positivity
  have a2 : (i.factorial : ℝ) ≠ 0 := by positivity
  have a3 : ((x - i).factorial : ℝ) ≠ 0 := by positivity
  field_simp

theorem binomPmf_nat (n i : ℕ) (p : ℝ) : binomPmf n p (i : ℤ) = n.choose i * p ^ i * (1 - p) ^ (n - i) := by
  rw [binomPmf, Int.toNat_natCast]
  split_ifs with h
  · rfl
  · rw [Nat.choose_eq_zero_of_lt (by omega)]; simp

/-- Sum of two binomial variables with the same success probability. -/
theorem C67_binom_conv {p : ℝ} (h0 : 0 ≤ p) (h1 : p ≤ 1) (m n x : ℕ) :
    MixesSum (fun i => dbinom (i : ℤ) (m : ℤ) (fin p) false) (fun i => dbinom ((x : ℤ) - i) (n : ℤ) (fin p) false)
      (dbinom (x : ℤ) ((m + n : ℕ) : ℤ) (fin p) false) := by
  refine mixesSum_of (fun i => ⟨(C08_dbinom m h0 h1 (i : ℤ)).1, (C08_dbinom m h0 h1 (i : ℤ)).2.1⟩)
    (fun i => ⟨(C08_dbinom n h0 h1 ((x : ℤ) - i)).1, (C08_dbinom n h0 h1 ((x : ℤ) - i)).2.1⟩)
    (C08_dbinom (m + n) h0 h1 (x : ℤ)).2.1 ?_
  have h : HasSum (fun i : ℕ => binomPmf m p i * binomPmf n p ((x : ℤ) - i))
      (∑ i ∈ Finset.range (x + 1), binomPmf m p i * binomPmf n p ((x : ℤ) - i)) := by
    refine hasSum_sum_of_ne_finset_zero fun i hi => ?_
    have : x < i := by simpa using hi
    rw [binomPmf, binomPmf, if_neg (by omega : ¬ (0 ≤ (x : ℤ) - i ∧ _)), mul_zero]
  convert h using 1
  rw [binomPmf_nat, Nat.add_choose_eq, Finset.Nat.sum_antidiagonal_eq_sum_range_succ_mk]
  push_cast
  rw [Finset.sum_mul, Finset.sum_mul]
  refine Finset.sum_congr rfl fun i hi => ?_
  have hi : i ≤ x := by simpa [Nat.lt_succ_iff] using hi
  rw [← Nat.cast_sub hi, binomPmf_nat, binomPmf_nat]
  by_cases hc : i ≤ m ∧ x - i ≤ n
  · rw [show m + n - x = (m - i) + (n - (x - i)) by omega, pow_add]
    have : p ^ x = p ^ i * p ^ (x - i) := by rw [← pow_add]; congr 1; omega
    rw [this]; ring
  · have : m.choose i * n.choose (x - i) = 0 := by
      rcases not_and_or.1 hc with h | h
      · rw [Nat.choose_eq_zero_of_lt (by omega), zero_mul]
      · rw [Nat.choose_eq_zero_of_lt (k := x - i) (by omega), mul_zero]
    have h' : (m.choose i : ℝ) * n.choose (x - i) = 0 := by exact_mod_cast this
    linear_combination (p ^ x * (1 - p) ^ (m + n - x) - p ^ i * (1 - p) ^ (m - i) * (p ^ (x - i) * (1 - p) ^ (n - (x - i)))) * h'

/-! ### Concrete cases -/

example := C67_norm_norm 3 1 (s := 2) (σ := 5) (by meets) (by meets)
example := C67_norm_invgamma_t 3 (ν := 4) (by meets)
example := C67_norm_chisq_t 3 (ν := 4) (by meets)
example := C67_exp_gamma_f (k := 2) (θ := 3) (x := 5) (by meets) (by meets) (by meets)
example := C67_invgamma_gamma_f (d1 := 3) (d2 := 4) (x := 5) (by meets) (by meets) (by meets) (by meets)
example := C67_norm_exp_laplace 3 1 (b := 2) (by meets)
example := C67_norm_conv 3 1 4 (s₁ := 2) (s₂ := 5) (by meets) (by meets)
example := C67_gamma_conv (a := 2) (b := 3) (θ := 5) (x := 4) (by meets) (by meets) (by meets) (by meets)
example := C67_chisq_conv (m := 2) (n := 3) (x := 4) (by meets) (by meets) (by meets)
example := C67_pois_thinning (l := 2) (p := 1 / 3) (by meets) (by meets) (by meets) 4
example := C67_pois_conv (l := 2) (m := 3) (by meets) (by meets) 4
example := C67_binom_conv (p := 1 / 3) (by meets) (by meets) 5 6 4

end Stats

import Verif.Props.C08D
import Mathlib.Analysis.SpecialFunctions.Pow.Asymptotics
import Mathlib.Analysis.SpecialFunctions.Gamma.Basic
import Verif.Lemmas.Meets

/-!
# C08, continued: values at the ends of the support

At an end of the support the coded density is the one-sided limit of the textbook density (`+inf` if
the density is unbounded there).
-/

set_option linter.unusedSectionVars false
open Classical Filter Topology
namespace Stats
open Fl Spec
variable [Lib] [Ideal]

/-- The coded value is the limit of the textbook density along the filter. -/
def IsLimitValue (v : Bool → Fl) (f : ℝ → ℝ) (l : Filter ℝ) : Prop :=
  (∃ r, IsValue v r ∧ Tendsto f l (𝓝 r)) ∨ (IsPole v ∧ Tendsto f l atTop)

theorem isPole_pinf : IsPole (fun _ => pinf) := ⟨rfl, rfl⟩
theorem isPole_log_if : IsPole (log_if pinf) := ⟨rfl, rfl⟩

section edge
variable {l : Filter ℝ} {u c f : ℝ → ℝ} {C p : ℝ}

theorem edge_neg (hu : Tendsto u l (𝓝[>] 0)) (hc : Tendsto c l (𝓝 C)) (hC : 0 < C) (hp : p < 0)
    (hf : ∀ᶠ x in l, f x = c x * u x ^ p) : Tendsto f l atTop := by
  have h1 : Tendsto (fun x => u x ^ p) l atTop := (tendsto_rpow_neg_nhdsGT_zero hp).comp hu
  have h2 := Tendsto.pos_mul_atTop hC hc h1
  exact h2.congr' (hf.mono fun x hx => hx.symm)

theorem edge_zero (hc : Tendsto c l (𝓝 C))
    (hf : ∀ᶠ x in l, f x = c x * u x ^ (0 : ℝ)) : Tendsto f l (𝓝 C) := by
  refine hc.congr' (hf.mono fun x hx => ?_)
  rw [hx, Real.rpow_zero, mul_one]

theorem edge_pos (hu : Tendsto u l (𝓝[>] 0)) (hc : Tendsto c l (𝓝 C)) (hp : 0 < p)
    (hf : ∀ᶠ x in l, f x = c x * u x ^ p) : Tendsto f l (𝓝 0) := by
  have h0 : Tendsto u l (𝓝 0) := hu.mono_right nhdsWithin_le_nhds
  have h1 : Tendsto (fun x => u x ^ p) l (𝓝 0) := by
    have := ((Real.continuousAt_rpow_const 0 p (Or.inr hp.le)).tendsto).comp h0
    rwa [Real.zero_rpow hp.ne'] at this
  have h2 := hc.mul h1
  rw [mul_zero] at h2
  exact h2.congr' (hf.mono fun x hx => hx.symm)
end edge

/-- near 0 from the right -/
theorem evt_pos : ∀ᶠ x : ℝ in 𝓝[>] 0, 0 < x := self_mem_nhdsWithin
theorem evt_lt_one : ∀ᶠ x : ℝ in 𝓝[>] 0, x < 1 :=
  mem_nhdsWithin_of_mem_nhds (Iio_mem_nhds zero_lt_one)

theorem C08_dbeta_zero {a b : ℝ} (ha : 0 < a) (hb : 0 < b) :
    IsLimitValue (dbeta (fin 0) (fin a) (fin b)) (betaPdf a b) (𝓝[>] 0) := by
  have e1 : ¬ a < 0 := by linarith
  have e2 : ¬ b < 0 := by linarith
  have hB := beta_pos ha hb
  have hc : Tendsto (fun x : ℝ => 1 / beta a b * (1 - x) ^ (b - 1)) (𝓝[>] 0) (𝓝 (1 / beta a b)) := by
    have : ContinuousAt (fun x : ℝ => 1 / beta a b * (1 - x) ^ (b - 1)) 0 :=
      continuousAt_const.mul (ContinuousAt.rpow_const (by fun_prop) (Or.inl (by norm_num)))
    have := this.tendsto.mono_left (nhdsWithin_le_nhds (s := Set.Ioi 0))
    simpa using this
  have hf : ∀ᶠ x in 𝓝[>] (0 : ℝ), betaPdf a b x = 1 / beta a b * (1 - x) ^ (b - 1) * x ^ (a - 1) := by
    filter_upwards [evt_pos, evt_lt_one] with x h0 h1
    rw [betaPdf_eq ⟨h0, h1⟩]; ring
  have hred : ∀ f, dbeta (fin 0) (fin a) (fin b) f =
      if a < 1 then pinf else if a > 1 then log_zero_if f else log_if (fin b) f := by
    intro f; simp [dbeta, beta_ok', beta_ok, e1, e2, ha.ne', hb.ne']
  rcases lt_trichotomy a 1 with h | h | h
  · right
    refine ⟨by constructor <;> simp [hred, h], edge_neg tendsto_id hc (by positivity) (by linarith) hf⟩
  · left
    subst h
    refine ⟨b, ?_, ?_⟩
    · have : dbeta (fin 0) (fin 1) (fin b) = log_if (fin b) := by funext f; simp [hred]
      rw [this]; exact isValue_log_if hb.le rfl
    · have h1 : 1 / beta 1 b = b := by
        have hG := Real.Gamma_pos_of_pos hb
        rw [beta, Real.Gamma_one, add_comm 1 b, Real.Gamma_add_one hb.ne']
        field_simp
      rw [h1] at hc hf
      refine edge_zero (u := id) hc ?_
      simpa using hf
  · left
    refine ⟨0, ?_, edge_pos tendsto_id hc (by linarith) hf⟩
    have : dbeta (fin 0) (fin a) (fin b) = log_zero_if := by
      funext f; simp [hred, h, h.le.not_gt]
    rw [this]; exact isValue_zero
example : IsLimitValue (dbeta (fin 0) (fin 1) (fin 4)) (betaPdf 1 4) (𝓝[>] 0) :=
  C08_dbeta_zero (a := 1) (b := 4) (ha := by meets) (hb := by meets)

theorem betaPdf_symm (a b x : ℝ) : betaPdf a b x = betaPdf b a (1 - x) := by
  rw [betaPdf, betaPdf, beta_comm b a]
  by_cases h : 0 < x ∧ x < 1
  · rw [if_pos h, if_pos ⟨by linarith, by linarith⟩, sub_sub_cancel]; ring
  · rw [if_neg h, if_neg (by intro h'; exact h ⟨by linarith, by linarith⟩)]

theorem tendsto_one_sub : Tendsto (fun x : ℝ => 1 - x) (𝓝[<] 1) (𝓝[>] 0) := by
  apply tendsto_nhdsWithin_of_tendsto_nhds_of_eventually_within
  · have : ContinuousAt (fun x : ℝ => 1 - x) 1 := by fun_prop
    have := this.tendsto.mono_left (nhdsWithin_le_nhds (s := Set.Iio 1))
    simpa using this
  · filter_upwards [self_mem_nhdsWithin] with x hx
    have : x < 1 := hx
    simp [this]

theorem C08_dbeta_one {a b : ℝ} (ha : 0 < a) (hb : 0 < b) :
    IsLimitValue (dbeta (fin 1) (fin a) (fin b)) (betaPdf a b) (𝓝[<] 1) := by
  have e1 : ¬ a < 0 := by linarith
  have e2 : ¬ b < 0 := by linarith
  have key : dbeta (fin 1) (fin a) (fin b) = dbeta (fin 0) (fin b) (fin a) := by
    funext f
    have h1 : ¬ (1 : ℝ) < 0 := by norm_num
    simp [dbeta, beta_ok', beta_ok, e1, e2, ha.ne', hb.ne', h1]
  rw [key]
  rcases C08_dbeta_zero hb ha with ⟨r, h1, h2⟩ | ⟨h1, h2⟩
  · exact Or.inl ⟨r, h1, (h2.comp tendsto_one_sub).congr fun x => (betaPdf_symm a b x).symm⟩
  · exact Or.inr ⟨h1, (h2.comp tendsto_one_sub).congr fun x => (betaPdf_symm a b x).symm⟩
example : IsLimitValue (dbeta (fin 1) (fin 1) (fin 4)) (betaPdf 1 4) (𝓝[<] 1) :=
  C08_dbeta_one (a := 1) (b := 4) (ha := by meets) (hb := by meets)

theorem tendsto_of_cont {g : ℝ → ℝ} {v : ℝ} (hg : ContinuousAt g 0) (hv : g 0 = v) :
    Tendsto g (𝓝[>] 0) (𝓝 v) := by
  have := hg.tendsto.mono_left (nhdsWithin_le_nhds (s := Set.Ioi 0))
  rwa [hv] at this

theorem C08_dgamma_zero {shape scale : ℝ} (hk : 0 < shape) (hs : Lib.eps ≤ scale) :
    IsLimitValue (dgamma (fin 0) (fin shape) (fin scale)) (gammaPdf shape scale) (𝓝[>] 0) := by
  have hs0 := Lib.eps_pos.trans_le hs
  have e1 : ¬ shape < 0 := by linarith
  have e2 : ¬ scale < Lib.eps := by linarith
  have hG := Real.Gamma_pos_of_pos hk
  have hc : Tendsto (fun x : ℝ => Real.exp (-x / scale) / (scale ^ shape * Real.Gamma shape)) (𝓝[>] 0)
      (𝓝 (1 / (scale ^ shape * Real.Gamma shape))) := by
    apply tendsto_of_cont
    · fun_prop
    · simp
  have hf : ∀ᶠ x in 𝓝[>] (0 : ℝ), gammaPdf shape scale x =
      Real.exp (-x / scale) / (scale ^ shape * Real.Gamma shape) * x ^ (shape - 1) := by
    filter_upwards [evt_pos] with x h0
    rw [gammaPdf, if_pos h0]; ring
  have hred : dgamma (fin 0) (fin shape) (fin scale) =
      log_if (dgamma_limit_vals (fin 0) (fin shape) (fin scale)) := by
    funext f; simp [dgamma, gamma_ok', gamma_ok, e1, e2, eps]
  rw [hred]
  rcases lt_trichotomy shape 1 with h | h | h
  · right
    refine ⟨?_, edge_neg tendsto_id hc (by positivity) (by linarith) hf⟩
    simp [dgamma_limit_vals, hk.ne', h, IsPole]
  · left
    subst h
    refine ⟨1 / scale, ?_, ?_⟩
    · exact isValue_log_if (by positivity) (by simp [dgamma_limit_vals, ifin_div _ hs0.ne'])
    · have : 1 / (scale ^ (1 : ℝ) * Real.Gamma 1) = 1 / scale := by simp
      rw [this] at hc
      refine edge_zero (u := id) hc ?_
      simpa using hf
  · left
    refine ⟨0, ?_, edge_pos tendsto_id hc (by linarith) hf⟩
    exact isValue_log_if le_rfl (by simp [dgamma_limit_vals, hk.ne', h.ne', h.le.not_gt])
example : IsLimitValue (dgamma (fin 0) (fin 3) (fin 2)) (gammaPdf 3 2) (𝓝[>] 0) :=
  C08_dgamma_zero (shape := 3) (scale := 2) (hk := by meets) (hs := by meets)

theorem C08_dchisq_zero {dof : ℝ} (hk : 0 < dof) :
    IsLimitValue (dchisq (fin 0) (fin dof)) (chisqPdf dof) (𝓝[>] 0) := by
  have e1 : ¬ dof < 0 := by linarith
  have hk2 : 0 < dof / 2 := by linarith
  have hG := Real.Gamma_pos_of_pos hk2
  have hc : Tendsto (fun x : ℝ => Real.exp (-x / 2) / (2 ^ (dof / 2) * Real.Gamma (dof / 2))) (𝓝[>] 0)
      (𝓝 (1 / (2 ^ (dof / 2) * Real.Gamma (dof / 2)))) := by
    apply tendsto_of_cont
    · fun_prop
    · simp
  have hf : ∀ᶠ x in 𝓝[>] (0 : ℝ), chisqPdf dof x =
      Real.exp (-x / 2) / (2 ^ (dof / 2) * Real.Gamma (dof / 2)) * x ^ (dof / 2 - 1) := by
    filter_upwards [evt_pos] with x h0
    rw [chisqPdf, if_pos h0]; ring
  have hred : dchisq (fin 0) (fin dof) = log_if (dchisq_limit_vals (fin dof)) := by
    funext f; simp [dchisq, chisq_ok', chisq_ok, e1]
  rw [hred]
  rcases lt_trichotomy dof 2 with h | h | h
  · right
    refine ⟨?_, edge_neg tendsto_id hc (by positivity) (by linarith) hf⟩
    simp [dchisq_limit_vals, h, IsPole]
  · left
    subst h
    refine ⟨1 / 2, ?_, ?_⟩
    · exact isValue_log_if (by positivity) (by simp [dchisq_limit_vals])
    · have : (1 : ℝ) / (2 ^ ((2 : ℝ) / 2) * Real.Gamma (2 / 2)) = 1 / 2 := by norm_num
      rw [this] at hc
      refine edge_zero (u := id) hc ?_
      simpa using hf
  · left
    refine ⟨0, ?_, edge_pos tendsto_id hc (by linarith) hf⟩
    exact isValue_log_if le_rfl (by simp [dchisq_limit_vals, h.ne', h.le.not_gt])
example : IsLimitValue (dchisq (fin 0) (fin 4)) (chisqPdf 4) (𝓝[>] 0) := C08_dchisq_zero (dof := 4) (hk := by meets)

theorem C08_df_zero {d1 d2 : ℝ} (h1 : Lib.eps ≤ d1) (h2 : Lib.eps ≤ d2) :
    IsLimitValue (df (fin 0) (fin d1) (fin d2)) (fPdf d1 d2) (𝓝[>] 0) := by
  have p1 := Lib.eps_pos.trans_le h1
  have p2 := Lib.eps_pos.trans_le h2
  have q1 : 0 < d1 / 2 := by linarith
  have q2 : 0 < d2 / 2 := by linarith
  have e1 : ¬ d1 < Lib.eps := by linarith
  have e2 : ¬ d2 < Lib.eps := by linarith
  have hB := beta_pos q1 q2
  have hc : Tendsto (fun x : ℝ => 1 / beta (d1 / 2) (d2 / 2) * (d1 / d2) ^ (d1 / 2) *
      (1 + d1 / d2 * x) ^ (-((d1 + d2) / 2))) (𝓝[>] 0)
      (𝓝 (1 / beta (d1 / 2) (d2 / 2) * (d1 / d2) ^ (d1 / 2))) := by
    apply tendsto_of_cont
    · exact continuousAt_const.mul (ContinuousAt.rpow_const (by fun_prop) (Or.inl (by norm_num)))
    · simp
  have hf : ∀ᶠ x in 𝓝[>] (0 : ℝ), fPdf d1 d2 x = 1 / beta (d1 / 2) (d2 / 2) * (d1 / d2) ^ (d1 / 2) *
      (1 + d1 / d2 * x) ^ (-((d1 + d2) / 2)) * x ^ (d1 / 2 - 1) := by
    filter_upwards [evt_pos] with x h0
    rw [fPdf, if_pos h0]; ring
  have hred : df (fin 0) (fin d1) (fin d2) = log_if (df_limit_vals_x0 (fin d1)) := by
    funext f; simp [df, f_ok', f_ok, e1, e2, eps]
  rw [hred]
  rcases lt_trichotomy d1 2 with h | h | h
  · right
    refine ⟨?_, edge_neg tendsto_id hc (by positivity) (by linarith) hf⟩
    simp [df_limit_vals_x0, h, IsPole]
  · left
    subst h
    refine ⟨1, ?_, ?_⟩
    · exact isValue_log_if (by positivity) (by simp [df_limit_vals_x0])
    · have hG := Real.Gamma_pos_of_pos q2
      have : 1 / beta (2 / 2) (d2 / 2) * (2 / d2) ^ ((2 : ℝ) / 2) = 1 := by
        rw [beta, div_self two_ne_zero, Real.Gamma_one, add_comm, Real.Gamma_add_one q2.ne', Real.rpow_one]
        field_simp
      rw [this] at hc
      refine edge_zero (u := id) hc ?_
      filter_upwards [hf] with x hx
      rw [hx, this]
      simp
  · left
    refine ⟨0, ?_, edge_pos tendsto_id hc (by linarith) hf⟩
    exact isValue_log_if le_rfl (by simp [df_limit_vals_x0, h.ne', h.le.not_gt])
example : IsLimitValue (df (fin 0) (fin 3) (fin 5)) (fPdf 3 5) (𝓝[>] 0) :=
  C08_df_zero (d1 := 3) (d2 := 5) (h1 := by meets) (h2 := by meets)

/-- Full statement for the Weibull density at 0; it fails for shape 1, where the code evaluates
`(shape-1)*log(0) = 0 * (-inf) = NaN` although the density there is `1/scale`. -/
theorem C08_dweibull_zero_violated :
    ¬ ∀ shape scale : ℝ, Lib.eps ≤ shape → Lib.eps ≤ scale →
      IsLimitValue (dweibull (fin 0) (fin shape) (fin scale)) (weibullPdf shape scale) (𝓝[>] 0) := by
  intro h
  have he : Lib.eps ≤ 1 := Lib.eps_le.trans (by norm_num)
  have hn : dweibull (fin 0) (fin 1) (fin 1) false = nan := by
    simp [dweibull, weibull_ok', weibull_ok, eps, he.not_gt, dweibull_log_compute, ideal,
      ifin_div _ one_ne_zero, fin_mul_ninf]
  rcases h 1 1 he he with ⟨r, h1, _⟩ | ⟨h1, _⟩
  · have := h1.2.1; rw [hn] at this; exact Fl.noConfusion this
  · have := h1.1; rw [hn] at this; exact Fl.noConfusion this

/-- The Weibull density at 0 for a shape other than 1. -/
theorem C08_dweibull_zero_partial {shape scale : ℝ} (hk : Lib.eps ≤ shape) (hs : Lib.eps ≤ scale)
    (h1 : shape ≠ 1) :
    IsLimitValue (dweibull (fin 0) (fin shape) (fin scale)) (weibullPdf shape scale) (𝓝[>] 0) := by
  have p := Lib.eps_pos.trans_le hk
  have q := Lib.eps_pos.trans_le hs
  have e1 : ¬ shape < Lib.eps := by linarith
  have e2 : ¬ scale < Lib.eps := by linarith
  have hc : Tendsto (fun x : ℝ => shape / scale * Real.exp (-(x / scale) ^ shape)) (𝓝[>] 0)
      (𝓝 (shape / scale)) := by
    apply tendsto_of_cont
    · refine continuousAt_const.mul (Real.continuous_exp.continuousAt.comp ?_)
      exact (ContinuousAt.rpow_const (by fun_prop) (Or.inr p.le)).neg
    · simp [Real.zero_rpow p.ne']
  have hu : Tendsto (fun x : ℝ => x / scale) (𝓝[>] 0) (𝓝[>] 0) := by
    apply tendsto_nhdsWithin_of_tendsto_nhds_of_eventually_within
    · exact tendsto_of_cont (by fun_prop) (by simp)
    · filter_upwards [evt_pos] with x hx
      exact div_pos hx q
  have hf : ∀ᶠ x in 𝓝[>] (0 : ℝ), weibullPdf shape scale x =
      shape / scale * Real.exp (-(x / scale) ^ shape) * (x / scale) ^ (shape - 1) := by
    filter_upwards [evt_pos] with x h0
    rw [weibullPdf, if_pos h0]; ring
  rcases lt_or_gt_of_ne h1 with h | h
  · right
    refine ⟨?_, edge_neg hu hc (by positivity) (by linarith) hf⟩
    simp [IsPole, dweibull, weibull_ok', weibull_ok, eps, e1, e2, h]
  · left
    refine ⟨0, ?_, edge_pos hu hc (by linarith) hf⟩
    have hks : 0 < shape / scale := by positivity
    have hs1 : 0 < shape - 1 := by linarith
    have : dweibull (fin 0) (fin shape) (fin scale) = fun b => exp_if ninf (!b) := by
      funext b
      simp only [dweibull, weibull_ok', weibull_ok, eps, dweibull_log_compute, ideal, ifin_div _ q.ne', ilog hks]
      simp [e1, e2, h.le.not_gt, mul_ninf_of_pos hs1, pow, p, p.ne']
    rw [this]; exact isValue_exp_if_ninf rfl
example : IsLimitValue (dweibull (fin 0) (fin 3) (fin 2)) (weibullPdf 3 2) (𝓝[>] 0) :=
  C08_dweibull_zero_partial (shape := 3) (scale := 2) (hk := by meets) (hs := by meets) (h1 := by meets)

/-- `y ↦ 1/x` from 0+ to infinity -/
theorem tendsto_inv0 : Tendsto (fun x : ℝ => x⁻¹) (𝓝[>] 0) atTop := tendsto_inv_nhdsGT_zero

theorem C08_dinvgamma_zero {shape rate : ℝ} (hk : 0 < shape) (hr : 0 < rate) :
    IsLimitValue (dinvgamma (fin 0) (fin shape) (fin rate)) (invgammaPdf shape rate) (𝓝[>] 0) := by
  left
  refine ⟨0, ?_, ?_⟩
  · have : dinvgamma (fin 0) (fin shape) (fin rate) = log_if (fin 0) := by
      funext b
      simp [dinvgamma, invgamma_ok', invgamma_ok, hk.le.not_gt, hr.le.not_gt, dinvgamma_limit_vals, hk.ne', hr.ne']
    rw [this]; exact isValue_log_if le_rfl rfl
  · have h1 := (tendsto_rpow_mul_exp_neg_mul_atTop_nhds_zero (shape + 1) rate hr).comp tendsto_inv0
    have h2 := h1.const_mul (rate ^ shape / Real.Gamma shape)
    rw [mul_zero] at h2
    refine h2.congr' ?_
    filter_upwards [evt_pos] with x hx
    rw [invgammaPdf, if_pos hx]
    simp only [Function.comp]
    rw [Real.inv_rpow hx.le, ← Real.rpow_neg hx.le]
    have e1 : -(shape + 1) = -shape - 1 := by ring
    have e2 : -rate * x⁻¹ = -rate / x := by ring
    rw [e1, e2]; ring
example : IsLimitValue (dinvgamma (fin 0) (fin 3) (fin 2)) (invgammaPdf 3 2) (𝓝[>] 0) :=
  C08_dinvgamma_zero (shape := 3) (rate := 2) (hk := by meets) (hr := by meets)

theorem C08_dinvgauss_zero {mu lambda : ℝ} (hm : 0 < mu) (hl : 0 < lambda) :
    IsLimitValue (dinvgauss (fin 0) (fin mu) (fin lambda)) (invgaussPdf mu lambda) (𝓝[>] 0) := by
  left
  refine ⟨0, ?_, ?_⟩
  · have : dinvgauss (fin 0) (fin mu) (fin lambda) = log_if (fin 0) := by
      funext b
      simp [dinvgauss, invgauss_ok', invgauss_ok, hm.le.not_gt, hl.le.not_gt, dinvgauss_limit_vals, hm.ne', hl.ne']
    rw [this]; exact isValue_log_if le_rfl rfl
  · have hpi := Real.pi_pos
    have h1 := (tendsto_rpow_mul_exp_neg_mul_atTop_nhds_zero (3 / 2) (lambda / 2) (by positivity)).comp
      tendsto_inv0
    have hc : Tendsto (fun x : ℝ => √(lambda / (2 * Real.pi)) *
        Real.exp (-(lambda * x) / (2 * mu ^ 2) + lambda / mu)) (𝓝[>] 0)
        (𝓝 (√(lambda / (2 * Real.pi)) * Real.exp (lambda / mu))) := by
      apply tendsto_of_cont
      · fun_prop
      · simp
    have h2 := hc.mul h1
    rw [mul_zero] at h2
    refine h2.congr' ?_
    filter_upwards [evt_pos] with x hx
    rw [invgaussPdf, if_pos hx]
    simp only [Function.comp]
    have e1 : √(lambda / (2 * Real.pi * x ^ 3)) = √(lambda / (2 * Real.pi)) * x⁻¹ ^ ((3 : ℝ) / 2) := by
      have : lambda / (2 * Real.pi * x ^ 3) = lambda / (2 * Real.pi) * x⁻¹ ^ (3 : ℕ) := by field_simp
      rw [this, Real.sqrt_mul (by positivity)]
      congr 1
      rw [Real.sqrt_eq_rpow, ← Real.rpow_natCast, ← Real.rpow_mul (by positivity)]
      norm_num
    have e2 : -(lambda * (x - mu) ^ 2) / (2 * mu ^ 2 * x) =
        (-(lambda * x) / (2 * mu ^ 2) + lambda / mu) + -(lambda / 2) * x⁻¹ := by
      field_simp; ring
    rw [e1, e2, Real.exp_add (-(lambda * x) / (2 * mu ^ 2) + lambda / mu)]; ring
example : IsLimitValue (dinvgauss (fin 0) (fin 3) (fin 2)) (invgaussPdf 3 2) (𝓝[>] 0) :=
  C08_dinvgauss_zero (mu := 3) (lambda := 2) (hm := by meets) (hl := by meets)

theorem C08_dlnorm_zero (mu : ℝ) {sigma : ℝ} (h : 0 < sigma) :
    IsLimitValue (dlnorm (fin 0) (fin mu) (fin sigma)) (lnormPdf mu sigma) (𝓝[>] 0) := by
  left
  refine ⟨0, ?_, ?_⟩
  · have : dlnorm (fin 0) (fin mu) (fin sigma) = log_if (fin 0) := by
      funext b
      simp [dlnorm, lnorm_ok', lnorm_ok, h.le.not_gt, dlnorm_limit_vals, h.ne']
    rw [this]; exact isValue_log_if le_rfl rfl
  · -- exponent `-L - (L-mu)^2/(2 sigma^2)` with `L = log x`
    have hL : Tendsto Real.log (𝓝[>] 0) atBot := Real.tendsto_log_nhdsGT_zero
    have hE : Tendsto (fun L : ℝ => -L - (L - mu) ^ 2 / (2 * sigma ^ 2)) atBot atBot := by
      have h1 : Tendsto (fun L : ℝ => (L - (mu - sigma ^ 2))) atBot atBot :=
        tendsto_atBot_add_const_right _ _ tendsto_id
      have h2 : Tendsto (fun L : ℝ => (L - (mu - sigma ^ 2)) * (L - (mu - sigma ^ 2))) atBot atTop :=
        h1.atBot_mul_atBot₀ h1
      have h3 := (h2.const_mul_atTop (show (0 : ℝ) < 1 / (2 * sigma ^ 2) by positivity))
      have h4 : Tendsto (fun L : ℝ => (-mu + sigma ^ 2 / 2) -
          1 / (2 * sigma ^ 2) * ((L - (mu - sigma ^ 2)) * (L - (mu - sigma ^ 2)))) atBot atBot := by
        have := tendsto_neg_atTop_atBot.comp h3
        exact (tendsto_atBot_add_const_left _ (-mu + sigma ^ 2 / 2) this).congr fun L => by
          simp only [Function.comp]; ring
      refine h4.congr fun L => ?_
      field_simp; ring
    have h1 := (Real.tendsto_exp_atBot.comp (hE.comp hL)).const_mul (1 / (√(2 * Real.pi) * sigma))
    rw [mul_zero] at h1
    refine h1.congr' ?_
    filter_upwards [evt_pos] with x hx
    rw [lnormPdf, if_pos hx]
    simp only [Function.comp]
    rw [sub_eq_add_neg, Real.exp_add, Real.exp_neg, Real.exp_log hx, neg_div]
    ring
example : IsLimitValue (dlnorm (fin 0) (fin 3) (fin 2)) (lnormPdf 3 2) (𝓝[>] 0) :=
  C08_dlnorm_zero (mu := 3) (sigma := 2) (h := by meets)

end Stats

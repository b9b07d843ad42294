import Verif.Lemmas.Params
import Verif.Lemmas.Range
import Verif.Lemmas.Meets

/-!
# C09: distribution functions take values in [0,1] (every rounding, every library, every argument)

`InUnit` is the claim: plain form is NaN or a finite number in `[0,1]`; log form is not positive.
The binomial, the Poisson (sum branch), the inverse-Gaussian and the t (two degrees of freedom) functions add
rounded terms; they are treated in exact arithmetic in `Verif/Props/C09Ideal.lean`.
-/

set_option linter.unusedSectionVars false
open Classical
namespace Stats
open Fl Spec
variable [Lib]

/-- The claim of C09 for a function of `log_form`. -/
def InUnit (f : Bool → Fl) : Prop :=
  (f false = nan ∨ ∃ r : ℝ, f false = fin r ∧ 0 ≤ r ∧ r ≤ 1) ∧ ¬ 0 < f true

theorem inUnit_of_log {f : Bool → Fl} {y : Fl} (h : PN y) (hf : ∀ b, f b = log_if y b) : InUnit f := by
  refine ⟨by rw [hf]; exact h, by rw [hf]; exact pn_log h⟩

theorem inUnit_nan {f : Bool → Fl} (hf : ∀ b, f b = nan) : InUnit f := by
  simp [InUnit, hf]
theorem inUnit_zero {f : Bool → Fl} (hf : ∀ b, f b = log_zero_if b) : InUnit f := by
  refine ⟨Or.inr ⟨0, by simp [hf]⟩, by simp [hf]⟩
theorem inUnit_one {f : Bool → Fl} (hf : ∀ b, f b = log_one_if b) : InUnit f := by
  refine ⟨Or.inr ⟨1, by simp [hf]⟩, by simp [hf]⟩

theorem btw_erf {z : Fl} (h : z ≠ nan) : Btw (-1) 1 (erf z) := by
  cases z with
  | nan => simp at h
  | ninf => exact btw_fin (by norm_num) (by norm_num)
  | pinf => exact btw_fin (by norm_num) (by norm_num)
  | fin r => exact btw_ofE (by simpa using Lib.erf_ge r) (by simpa using Lib.erf_le r)

theorem btw_tanh {z : Fl} (h : z ≠ nan) : Btw (-1) 1 (tanh z) := by
  cases z with
  | nan => simp at h
  | ninf => exact btw_fin (by norm_num) (by norm_num)
  | pinf => exact btw_fin (by norm_num) (by norm_num)
  | fin r => exact btw_ofE (by simpa using Lib.tanh_ge r) (by simpa using Lib.tanh_le r)

theorem btw_atan {z : Fl} (h : z ≠ nan) : Btw (-(Lib.pi / 2)) (Lib.pi / 2) (atan z) := by
  have := Lib.pi_pos
  cases z with
  | nan => simp at h
  | ninf => exact btw_fin le_rfl (by linarith)
  | pinf => exact btw_fin (by linarith) le_rfl
  | fin r => exact btw_ofE (Lib.atan_ge r) (Lib.atan_le r)

theorem btw_half_one_add {y : Fl} (h : Btw (-1) 1 y) : Btw 0 1 (half * (1 + y)) := by
  have h2 := (btw_fin (a := 1) (b := 1) le_rfl le_rfl).add h
    (by norm_num) (by norm_num)
  exact Btw.half_mul (by simpa using h2.mono (c := 0) (d := 2) (by norm_num) (by norm_num))

theorem pn_pnorm_compute (z : Fl) : PN (pnorm_compute z) := by
  rw [pnorm_compute]
  by_cases h : z / SQRT2 = nan
  · rw [h]; left; simp [erf]
  · exact Or.inr (btw_half_one_add (btw_erf h))

theorem pn_pnorm_limit (x mu sigma : Fl) : PN (pnorm_limit_vals x mu sigma) := by
  rw [pnorm_limit_vals]; split_ifs <;> simp

theorem C09_pnorm (x mu sigma : Fl) : InUnit (pnorm x mu sigma) := by
  by_cases h1 : norm_ok' x mu sigma
  · by_cases h2 : (isInf x ∨ isInf mu ∨ isInf sigma) ∨ sigma ==. 0
    · exact inUnit_of_log (pn_pnorm_limit x mu sigma) fun b => by simp only [pnorm, if_neg (not_not.2 h1), if_pos h2]
    · exact inUnit_of_log (pn_pnorm_compute ((x - mu) / sigma)) fun b => by simp only [pnorm, if_neg (not_not.2 h1), if_neg h2]
  · exact inUnit_nan fun b => by simp only [pnorm, if_pos h1]

theorem C09_plnorm (x mu sigma : Fl) : InUnit (plnorm x mu sigma) := by
  by_cases h1 : lnorm_ok' x mu sigma
  · by_cases h2 : eps > x
    · exact inUnit_zero fun b => by simp only [plnorm, if_neg (not_not.2 h1), if_pos h2]
    · have : plnorm x mu sigma = pnorm (log x) mu sigma := by
        funext b; simp only [plnorm, if_neg (not_not.2 h1), if_neg h2]
      rw [this]; exact C09_pnorm _ _ _
  · exact inUnit_nan fun b => by simp only [plnorm, if_pos h1]

/-- A quotient of ordered non-negative numbers. -/
theorem pn_div {x y : Fl} (hx : NN x) (hxy : x ≤ y ∨ x = nan) : PN (x / y) := by
  rcases hxy with hxy | rfl
  · rcases nn_iff.1 hx with rfl | rfl | ⟨r, rfl, hr⟩
    · simp
    · cases y <;> simp_all
    · cases y with
      | fin q =>
        have hq : r ≤ q := by simpa using hxy
        rw [fin_div_fin]
        split_ifs with h1 h2 h3
        · simp
        · exact absurd (by linarith) h2.elim
        · exfalso; apply h2; linarith
        · exact Or.inr (btw_rnd (by simp) (by simp) (div_nonneg hr (hr.trans hq))
            (div_le_one_of_le₀ hq (hr.trans hq)))
      | _ => simp_all
  · simp

theorem C09_punif (x a b : Fl) : InUnit (punif x a b) := by
  by_cases h1 : unif_ok' x a b
  · by_cases h2 : isInf a ∧ isInf b
    · exact inUnit_nan fun b => by simp only [punif, if_neg (not_not.2 h1), if_pos h2]
    · refine inUnit_of_log (y := punif_compute x a b) ?_
        fun b => by simp only [punif, if_neg (not_not.2 h1), if_neg h2]
      rw [punif_compute]; split_ifs with h3 h4
      · simp
      · simp
      · have hab : a < b := (ends_iff a b).1 ((unif_ok_iff a b).1 h1.2)
        have hx : x ≠ nan := h1.1
        apply pn_div
        · cases x <;> cases a <;> simp_all [NN]
          rw [fin_sub_fin]
          simpa using rnd_nonneg (by linarith : (0 : ℝ) ≤ _)
        · cases x <;> cases a <;> cases b <;> simp_all
          · rw [fin_sub_fin, fin_sub_fin]
            left; rw [ofE_le_ofE]; exact Lib.rnd_mono (by linarith)
          · rw [fin_sub_fin]; left
            exact (le_iff_toE (ofE_ne_nan _) (by simp)).2 le_top
  · exact inUnit_nan fun b => by simp only [punif, if_pos h1]

theorem btw_neg_expm1 {z : Fl} (h : z = ninf ∨ ∃ r, z = fin r ∧ r ≤ 0) : Btw 0 1 (-expm1 z) := by
  have : Btw (-1) 0 (expm1 z) := by
    rcases h with rfl | ⟨r, rfl, h⟩
    · exact btw_fin (by norm_num) (by norm_num)
    · exact btw_ofE (by simpa using Lib.expm1_ge r) (by simpa using Lib.expm1_nonpos r h)
  simpa using this.neg

/-- minus a number that is not negative -/
theorem neg_nn {z : Fl} (h : NN z) : -z = nan ∨ -z = ninf ∨ ∃ r, -z = fin r ∧ r ≤ 0 := by
  rcases nn_iff.1 h with rfl | rfl | ⟨r, rfl, hr⟩ <;> simp_all

theorem pn_neg_expm1 {z : Fl} (h : NN z) : PN (-expm1 (-z)) := by
  rcases neg_nn h with h | h
  · rw [h]; left; simp [expm1]
  · exact Or.inr (btw_neg_expm1 h)

theorem ofE_neg (e : EReal) : ofE (-e) = -ofE e := by
  induction e using EReal.rec <;> simp
  rw [← EReal.coe_neg, ofE_coe]

theorem neg_mul_fl (x y : Fl) : -x * y = -(x * y) := by
  cases x <;> cases y <;> simp [fin_mul_fin, pinf_mul_fin, ninf_mul_fin, fin_mul_pinf, fin_mul_ninf]
  · split_ifs <;> rfl
  · rename_i r
    rcases lt_trichotomy r 0 with h | h | h
    · simp [h.ne, h, not_lt.2 h.le]
    · simp [h]
    · simp [h.ne', h, not_lt.2 h.le]
  · rw [Lib.rnd_neg, ofE_neg]
  · rename_i r
    rcases lt_trichotomy r 0 with h | h | h
    · simp [h.ne, h, not_lt.2 h.le]
    · simp [h]
    · simp [h.ne', h, not_lt.2 h.le]
  · split_ifs <;> rfl

theorem C09_pexp (x rate : Fl) : InUnit (pexp x rate) := by
  by_cases h1 : exp_ok' x rate
  · refine inUnit_of_log (y := pexp_compute x rate) ?_
      fun b => by simp only [pexp, if_neg (not_not.2 h1)]
    rw [pexp_compute]; split_ifs with h2 h3
    · simp
    · simp
    · rw [neg_mul_fl]
      apply pn_neg_expm1
      apply NN.mul h1.2.2
      have := h1.1
      cases x <;> simp_all [NN]
      linarith
  · exact inUnit_nan fun b => by simp only [pexp, if_pos h1]

theorem C09_pcauchy (x mu sigma : Fl) : InUnit (pcauchy x mu sigma) := by
  by_cases h1 : cauchy_ok' x mu sigma
  · by_cases h2 : isInf x ∨ isInf mu ∨ isInf sigma
    · refine inUnit_of_log (y := pcauchy_limit_vals x mu sigma) ?_
        fun b => by simp only [pcauchy, if_neg (not_not.2 h1), if_pos h2]
      rw [pcauchy_limit_vals]; split_ifs <;> simp
    · refine inUnit_of_log (y := pcauchy_compute ((x - mu) / sigma)) ?_
        fun b => by simp only [pcauchy, if_neg (not_not.2 h1), if_neg h2]
      exact pn_pcauchy_compute _
  · exact inUnit_nan fun b => by simp only [pcauchy, if_pos h1]
where
  pn_pcauchy_compute (z : Fl) : PN (pcauchy_compute z) := by
    rw [pcauchy_compute]
    by_cases h : z = nan
    · subst h; left; simp [atan]
    · right
      obtain ⟨r, hr, h1, h2⟩ := btw_atan h
      have hpi := Lib.pi_pos
      rw [hr, PI, fin_div_fin, if_neg hpi.ne']
      have : Btw (-(1 / 2)) (1 / 2) (ofE (Lib.rnd (r / Lib.pi))) := by
        refine btw_rnd (rep_neg rep_oh) rep_oh ?_ ?_
        · rw [le_div_iff₀ hpi]; linarith
        · rw [div_le_iff₀ hpi]; linarith
      have := (btw_fin (a := 1 / 2) (b := 1 / 2) le_rfl le_rfl).add this (by norm_num) (by norm_num)
      norm_num at this
      simpa using this

theorem btw_exp_nonpos {z : Fl} (h : z = ninf ∨ ∃ r, z = fin r ∧ r ≤ 0) : Btw 0 1 (exp z) := by
  rcases h with rfl | ⟨r, rfl, h⟩
  · exact btw_fin le_rfl zero_le_one
  · exact btw_ofE (by simpa using Lib.exp_nonneg r) (by simpa using Lib.exp_le_one r h)

theorem nn_abs (z : Fl) : NN (abs z) := by cases z <;> simp [NN]

theorem neg_div_fl (x : Fl) {y : Fl} (hy : NN y) (h0 : ¬ y ==. 0) : -x / y = -(x / y) := by
  rcases nn_iff.1 hy with rfl | rfl | ⟨r, rfl, hr⟩
  · simp
  · cases x <;> simp
  · have hr0 : r ≠ 0 := by simpa using h0
    cases x <;> simp [pinf_div_fin, ninf_div_fin, hr, fin_div_fin, hr0]
    rw [neg_div, Lib.rnd_neg]
    induction Lib.rnd _ using EReal.rec <;> simp
    rw [← EReal.coe_neg, ofE_coe]

theorem sgn_cases (z : Fl) : sgn z = fin 1 ∨ sgn z = fin (-1) ∨ sgn z = fin 0 := by
  cases z
  · simp
  · simp
  · rw [sgn_fin]; split_ifs <;> simp
  · simp

theorem pn_plaplace_compute (z sigma : Fl) (hs : NN sigma) (h0 : ¬ sigma ==. 0) :
    PN (plaplace_compute z sigma) := by
  rw [plaplace_compute, neg_div_fl _ hs h0]
  rcases neg_nn ((nn_abs z).div hs) with h | h
  · rw [h]; left; simp
  · right
    obtain ⟨r, hr, h1, h2⟩ := (btw_exp_nonpos h).one_sub
    rw [hr]
    have hb : Btw (-(1 / 2)) (1 / 2) (half * sgn z * fin r) := by
      have e1 : half * fin 1 = fin (1 / 2) := by rw [half_eq, fin_mul_fin]; simp
      have e2 : half * fin (-1) = fin (-(1 / 2)) := by
        rw [half_eq, fin_mul_fin, mul_neg, Lib.rnd_neg, mul_one, rnd_onehalf, ← EReal.coe_neg, ofE_coe]
      have e3 : half * fin 0 = fin 0 := by rw [half_eq, fin_mul_fin]; simp
      rcases sgn_cases z with hz | hz | hz <;> rw [hz]
      · rw [e1, fin_mul_fin]; exact btw_rnd (rep_neg rep_oh) rep_oh (by linarith) (by linarith)
      · rw [e2, fin_mul_fin]; exact btw_rnd (rep_neg rep_oh) rep_oh (by linarith) (by linarith)
      · rw [e3, fin_mul_fin]; exact btw_rnd (rep_neg rep_oh) rep_oh (by linarith) (by linarith)
    have := (btw_fin (a := 1 / 2) (b := 1 / 2) le_rfl le_rfl).add hb (by norm_num) (by norm_num)
    norm_num at this
    simpa using this

theorem pn_half_sgn (z : Fl) : PN (half + half * sgn z) := by
  right
  have e1 : half * fin 1 = fin (1 / 2) := by rw [half_eq, fin_mul_fin]; simp
  have e2 : half * fin (-1) = fin (-(1 / 2)) := by
    rw [half_eq, fin_mul_fin, mul_neg, Lib.rnd_neg, mul_one, rnd_onehalf, ← EReal.coe_neg, ofE_coe]
  have e3 : half * fin 0 = fin 0 := by rw [half_eq, fin_mul_fin]; simp
  rcases sgn_cases z with hz | hz | hz <;> rw [hz]
  · rw [e1, half_eq, fin_add_fin]; exact btw_rnd (by simp) (by simp) (by norm_num) (by norm_num)
  · rw [e2, half_eq, fin_add_fin]; exact btw_rnd (by simp) (by simp) (by norm_num) (by norm_num)
  · rw [e3, half_eq, fin_add_fin]; exact btw_rnd (by simp) (by simp) (by norm_num) (by norm_num)

theorem C09_plaplace (x mu sigma : Fl) : InUnit (plaplace x mu sigma) := by
  by_cases h1 : laplace_ok' x mu sigma
  · by_cases h2 : (isInf x ∨ isInf mu ∨ isInf sigma) ∨ sigma ==. 0
    · refine inUnit_of_log (y := plaplace_limit_vals x mu sigma) ?_
        fun b => by simp only [plaplace, if_neg (not_not.2 h1), if_pos h2]
      rw [plaplace_limit_vals]; split_ifs <;> try simp
      simpa using pn_half_sgn (x - mu)
    · exact inUnit_of_log (pn_plaplace_compute (x - mu) sigma h1.2.2 (fun h => h2 (Or.inr h)))
        fun b => by simp only [plaplace, if_neg (not_not.2 h1), if_neg h2]
  · exact inUnit_nan fun b => by simp only [plaplace, if_pos h1]

theorem C09_plogis (x mu sigma : Fl) : InUnit (plogis x mu sigma) := by
  by_cases h1 : logis_ok' x mu sigma
  · by_cases h2 : (isInf x ∨ isInf mu ∨ isInf sigma) ∨ sigma ==. 0
    · refine inUnit_of_log (y := plogis_limit_vals x mu sigma) ?_
        fun b => by simp only [plogis, if_neg (not_not.2 h1), if_pos h2]
      rw [plogis_limit_vals]; split_ifs <;> try simp
      simpa using pn_half_sgn (x - mu)
    · refine inUnit_of_log (y := plogis_compute ((x - mu) / (2 * sigma))) ?_
        fun b => by simp only [plogis, if_neg (not_not.2 h1), if_neg h2]
      rw [plogis_compute]
      by_cases h : (x - mu) / (2 * sigma) = nan
      · rw [h]; left; simp [tanh]
      · exact Or.inr (btw_half_one_add (btw_tanh h))
  · exact inUnit_nan fun b => by simp only [plogis, if_pos h1]

theorem pn_ibeta (a b z : Fl) : PN (ibeta a b z) := by
  unfold ibeta
  split
  · split_ifs
    · simp
    · exact pn_ofE (Lib.ibeta_nonneg _ _ _) (Lib.ibeta_le _ _ _)
  · simp

theorem pn_igamma (a z : Fl) : PN (igamma a z) := by
  unfold igamma
  split <;> try simp
  · split_ifs
    · simp
    · exact pn_ofE (Lib.igamma_nonneg _ _) (Lib.igamma_le _ _)
  · split_ifs <;> simp
  · split_ifs <;> simp

theorem C09_pbeta (x a b : Fl) : InUnit (pbeta x a b) := by
  by_cases h1 : beta_ok' x a b
  swap
  · exact inUnit_nan fun b => by simp only [pbeta, if_pos h1]
  by_cases h2 : x ≤ 0
  · exact inUnit_zero fun b => by simp only [pbeta, if_neg (not_not.2 h1), if_pos h2]
  by_cases h3 : x ≥ 1
  · exact inUnit_of_log (y := 1) (by simp) fun b => by
      simp only [pbeta, if_neg (not_not.2 h1), if_neg h2, if_pos h3]
  by_cases h4 : a ==. 0 ∨ b ==. 0 ∨ (isPosinf a ∨ isPosinf b)
  · refine inUnit_of_log (y := pbeta_limit_vals x a b) ?_ fun b => by
      simp only [pbeta, if_neg (not_not.2 h1), if_neg h2, if_neg h3, if_pos h4]
    rw [pbeta_limit_vals]; split_ifs <;> simp
  · exact inUnit_of_log (pn_ibeta a b x) fun b => by
      simp only [pbeta, if_neg (not_not.2 h1), if_neg h2, if_neg h3, if_neg h4, pbeta_compute]

theorem C09_pgamma (x shape scale : Fl) : InUnit (pgamma x shape scale) := by
  by_cases h1 : gamma_ok' x shape scale
  swap
  · exact inUnit_nan fun b => by simp only [pgamma, if_pos h1]
  by_cases h2 : isPosinf x ∧ isPosinf scale
  · exact inUnit_nan fun b => by simp only [pgamma, if_neg (not_not.2 h1), if_pos h2]
  by_cases h3 : eps > x
  · exact inUnit_zero fun b => by
      simp only [pgamma, if_neg (not_not.2 h1), if_neg h2, if_pos h3]
  by_cases h4 : (isPosinf x ∨ isPosinf shape ∨ isPosinf scale) ∨ shape ==. 0
  · refine inUnit_of_log (y := pgamma_limit_vals x shape scale) ?_ fun b => by
      simp only [pgamma, if_neg (not_not.2 h1), if_neg h2, if_neg h3, if_pos h4]
    rw [pgamma_limit_vals]; split_ifs <;> simp
  · exact inUnit_of_log (pn_igamma shape (x / scale)) fun b => by
      simp only [pgamma, if_neg (not_not.2 h1), if_neg h2, if_neg h3, if_neg h4, pgamma_compute]

theorem pn_of_inUnit {f : Bool → Fl} (h : InUnit f) : PN (f false) := h.1

theorem C09_pinvgamma (x shape rate : Fl) : InUnit (pinvgamma x shape rate) := by
  by_cases h1 : invgamma_ok' x shape rate
  swap
  · exact inUnit_nan fun b => by simp only [pinvgamma, if_pos h1]
  by_cases h2 : x < 0
  · exact inUnit_zero fun b => by simp only [pinvgamma, if_neg (not_not.2 h1), if_pos h2]
  have key : ∀ s t, InUnit (fun b => pinvgamma_compute s shape t b) := fun s t =>
    inUnit_of_log (pn_of_inUnit (C09_pgamma s shape t)).one_sub fun b => rfl
  set y := if x ==. 0 then pinf else if isPosinf x then 0 else 1 / x with hy
  have : pinvgamma x shape rate = fun b => pinvgamma_limit_vals y shape rate b := by
    funext b
    simp only [pinvgamma, if_neg (not_not.2 h1), if_neg h2, hy]
  rw [this]
  unfold pinvgamma_limit_vals
  split_ifs
  · exact key _ _
  · exact key _ _
  · exact key _ _

theorem C09_pchisq (x dof : Fl) : InUnit (pchisq x dof) := by
  by_cases h1 : chisq_ok' x dof
  swap
  · exact inUnit_nan fun b => by simp only [pchisq, if_pos h1]
  by_cases h2 : eps > x
  · exact inUnit_zero fun b => by simp only [pchisq, if_neg (not_not.2 h1), if_pos h2]
  by_cases h3 : dof ==. 0
  · exact inUnit_one fun b => by simp only [pchisq, if_neg (not_not.2 h1), if_neg h2, if_pos h3]
  by_cases h4 : isPosinf x
  · exact inUnit_one fun b => by
      simp only [pchisq, if_neg (not_not.2 h1), if_neg h2, if_neg h3, if_pos h4]
  by_cases h5 : isPosinf dof
  · exact inUnit_zero fun b => by
      simp only [pchisq, if_neg (not_not.2 h1), if_neg h2, if_neg h3, if_neg h4, if_pos h5]
  · exact inUnit_of_log (pn_igamma (dof / 2) (x / 2)) fun b => by
      simp only [pchisq, if_neg (not_not.2 h1), if_neg h2, if_neg h3, if_neg h4, if_neg h5, pchisq_compute]

/-- F distribution function, plain form, every argument. The log form is `C09_pf_violated` /
`C09_pf_log_partial`. -/
theorem C09_pf_plain (x df1 df2 : Fl) :
    pf x df1 df2 false = nan ∨ ∃ r : ℝ, pf x df1 df2 false = fin r ∧ 0 ≤ r ∧ r ≤ 1 := by
  show PN _
  rw [pf, ite_not]; split_ifs with h1 h2 h3 h4
  · simp
  · simp
  · rw [pf_limit_vals_dof]; split_ifs
    · simp
    · simp
    · simp
    · exact (pn_of_inUnit (C09_pchisq _ _)).one_sub
    · exact pn_of_inUnit (C09_pchisq _ _)
  · exact pn_ibeta _ _ _
  · simp

/-- F distribution function in log form: not positive when `df1` is finite. Missing: `df1 = +inf` with
`df2` finite, where the claim is false. -/
theorem C09_pf_log_partial (x df1 df2 : Fl) (h : df1 ≠ pinf ∨ df2 = pinf) : ¬ 0 < pf x df1 df2 true := by
  rw [pf, ite_not]; split_ifs with h1 h2 h3 h4
  · simp
  · simp
  · rw [pf_limit_vals_dof]; split_ifs with g1 g2 g3 g4
    · simp
    · rw [log_if_true]; exact pn_log (by rw [half_eq]; exact pn_half)
    · simp
    · exfalso; simp_all
    · exact (C09_pchisq _ _).2
  · exact pn_log (pn_ibeta _ _ _)
  · simp
example : ¬ 0 < pf (fin 2) (fin 3) pinf true := C09_pf_log_partial _ _ _ (Or.inl (by simp))

/-- With `df1 = +inf` the log form returns `1 - log(...)`, which is at least 1 (pf.ipp:54): any
`df2 ≥ 1` and any `x ≥ eps`, for every library and rounding. -/
theorem C09_pf_violated : ∃ x df1 df2 : Fl, Spec.TwoPos df1 df2 ∧ 0 < pf x df1 df2 true := by
  have he := Lib.eps_le
  have hp := Lib.eps_pos
  refine ⟨fin 1, pinf, fin 1, ⟨by simp [pos_iff], by simp [pos_iff]⟩, ?_⟩
  have e1 : ¬ Lib.eps > 1 := by linarith
  have hpf : pf (fin 1) pinf (fin 1) true = 1 - pchisq (fin 1 / fin 1) (fin 1) true := by
    rw [pf, if_neg, if_neg, if_neg, if_pos, pf_limit_vals_dof, if_neg, if_pos] <;>
      simp_all [f_ok', f_ok, eps]
  rw [hpf]
  have h := (C09_pchisq (fin 1 / fin 1) (fin 1))
  have hlog : pchisq (fin 1 / fin 1) (fin 1) true = log (pchisq (fin 1 / fin 1) (fin 1) false) := by
    have e2 : (fin 1 / fin 1 : Fl) = fin 1 := by rw [fin_div_fin]; simp
    rw [e2]
    simp [pchisq, chisq_ok', chisq_ok, eps, e1]
  have hv : pchisq (fin 1 / fin 1) (fin 1) false ≠ nan := by
    have e2 : (fin 1 / fin 1 : Fl) = fin 1 := by rw [fin_div_fin]; simp
    have e3 : (fin 1 / 2 : Fl) = fin (1 / 2) := by
      rw [ofNat_eq, fin_div_fin, if_neg (by norm_num), rnd_onehalf, ofE_coe]
    rw [e2]
    simp only [pchisq, pchisq_compute, e3, igamma]
    have : ¬ eps > (fin 1 : Fl) := by simpa [eps] using e1
    rw [if_neg (by simp [chisq_ok', chisq_ok]), if_neg this]
    simp [ofE_ne_nan]
  have hl : ¬ 0 < pchisq (fin 1 / fin 1) (fin 1) true := h.2
  rw [hlog] at hl ⊢
  rcases h.1 with h0 | ⟨r, h0, hr0, hr1⟩
  · exact absurd h0 hv
  · rw [h0] at hl ⊢
    rcases hr0.eq_or_lt with rfl | hr0
    · simp
    · rw [log_fin_pos hr0] at hl ⊢
      have : Lib.log r ≤ 0 := by simpa using hl
      induction hq : Lib.log r using EReal.rec with
      | bot => simp
      | top => simp [hq] at this
      | coe q =>
        have hq0 : q ≤ 0 := by rw [hq] at this; exact_mod_cast this
        rw [ofE_coe, one_eq, fin_sub_fin]
        have : (1 : EReal) ≤ Lib.rnd (1 - q) := by
          have := Lib.rnd_mono (by linarith : (1 : ℝ) ≤ 1 - q)
          simpa using this
        have h2 : (0 : EReal) < Lib.rnd (1 - q) := lt_of_lt_of_le zero_lt_one this
        simpa using h2

/-- t distribution function for every number of degrees of freedom other than 2. -/
theorem C09_pt_partial (x dof : Fl) (h : dof ≠ fin 2) : InUnit (pt x dof) := by
  by_cases h1 : t_ok' x dof
  swap
  · exact inUnit_nan fun b => by simp only [pt, if_pos h1]
  by_cases h2 : isPosinf x
  · exact inUnit_one fun b => by simp only [pt, if_neg (not_not.2 h1), if_pos h2]
  by_cases h3 : isNeginf x
  · exact inUnit_zero fun b => by simp only [pt, if_neg (not_not.2 h1), if_neg h2, if_pos h3]
  by_cases h4 : isPosinf dof
  · have : pt x dof = pnorm x 0 1 := by
      funext b; simp only [pt, if_neg (not_not.2 h1), if_neg h2, if_neg h3, if_pos h4]
    rw [this]; exact C09_pnorm _ _ _
  · refine inUnit_of_log (y := pt_compute x dof) ?_ fun b => by
      simp only [pt, if_neg (not_not.2 h1), if_neg h2, if_neg h3, if_neg h4]
    have hm2 : ∀ z r, PN (pt_compute_main_2 z r) := fun z r => by
      rw [pt_compute_main_2]
      rcases (pn_of_inUnit (C09_pbeta (1 / z) (r / 2) half)) with h | h
      · rw [h]; simp
      · exact Or.inr (h.div_two.mono le_rfl (by norm_num))
    have hm1 : ∀ z r, PN (pt_compute_main_1 z r) := fun z r => by
      rw [pt_compute_main_1]
      rcases (pn_of_inUnit (C09_pbeta (z / (r + z)) half (r / 2))) with h | h
      · rw [h]; simp
      · have := (btw_fin (a := 1 / 2) (b := 1 / 2) le_rfl le_rfl).sub h.div_two
          (by norm_num) (by simp)
        exact Or.inr (by simpa using this.mono (c := 0) (d := 1) (by norm_num) (by norm_num))
    rw [pt_compute]; split_ifs with h5 h6
    · exact C09_pcauchy.pn_pcauchy_compute x
    · exfalso; apply h
      cases dof <;> simp_all
    · rw [pt_compute_main]; split_ifs
      · exact (hm1 _ _).one_sub
      · exact hm1 _ _
      · exact (hm2 _ _).one_sub
      · exact hm2 _ _
example : InUnit (pt (fin (1 / 2)) (fin 4)) := C09_pt_partial (x := fin (1 / 2)) (dof := fin 4) (h := by meets)

theorem nn_pow (x y : Fl) : NN (pow x y) := by
  unfold pow
  split <;> try simp
  · split_ifs <;> try simp [NN]
    exact Lib.pow_nonneg _ _ (lt_of_le_of_ne (by linarith) (Ne.symm ‹_›))
  · split_ifs <;> simp [NN]
  · split_ifs <;> simp [NN]
  · split_ifs <;> simp [NN]

theorem C09_pweibull (x shape scale : Fl) : InUnit (pweibull x shape scale) := by
  by_cases h1 : weibull_ok' x shape scale
  swap
  · exact inUnit_nan fun b => by simp only [pweibull, if_pos h1]
  by_cases h2 : x < eps
  · exact inUnit_zero fun b => by simp only [pweibull, if_neg (not_not.2 h1), if_pos h2]
  by_cases h3 : isInf x ∨ isInf shape ∨ isInf scale
  · refine inUnit_of_log (y := pweibull_limit_vals x shape scale) ?_ fun b => by
      simp only [pweibull, if_neg (not_not.2 h1), if_neg h2, if_pos h3]
    rw [pweibull_limit_vals]; split_ifs <;> try simp
    simpa using pn_neg_expm1 (z := fin 1) (by simp [NN])
  · refine inUnit_of_log (y := pweibull_compute (x / scale) shape) ?_ fun b => by
      simp only [pweibull, if_neg (not_not.2 h1), if_neg h2, if_neg h3]
    exact pn_neg_expm1 (nn_pow _ _)

theorem pn_prob {p : Fl} (h : Prob p) : PN p := by
  obtain ⟨r, h0, h1, rfl⟩ := h
  exact Or.inr (btw_fin h0 h1)

theorem C09_pbern (x : ℤ) (prob : Fl) : InUnit (pbern x prob) := by
  by_cases h1 : bern_ok prob
  swap
  · exact inUnit_nan fun b => by simp only [pbern, if_pos h1]
  refine inUnit_of_log (y := pbern_compute x prob) ?_ fun b => by
    simp only [pbern, if_neg (not_not.2 h1)]
  rw [pbern_compute]; split_ifs
  · simp
  · simp
  · exact (pn_prob ((bern_ok_iff _).1 h1)).one_sub

theorem C09_pradem (x : ℤ) (prob : Fl) : InUnit (pradem x prob) := by
  by_cases h1 : radem_ok prob
  swap
  · exact inUnit_nan fun b => by simp only [pradem, if_pos h1]
  refine inUnit_of_log (y := pradem_compute x prob) ?_ fun b => by
    simp only [pradem, if_neg (not_not.2 h1)]
  rw [pradem_compute]; split_ifs
  · simp
  · simp
  · exact (pn_prob ((radem_ok_iff _).1 h1)).one_sub

/-- Poisson distribution function where the code uses the incomplete gamma function. Missing here: the
sum branch (`rate ≤ 10`, `x ≤ 15`), see `C09_ppois` (exact arithmetic). -/
theorem C09_ppois_partial (x : ℤ) (rate : Fl) (h : rate > 10 ∨ x > 15) : InUnit (ppois x rate) := by
  by_cases h1 : pois_ok rate
  swap
  · exact inUnit_nan fun b => by simp only [ppois, if_pos h1]
  by_cases h2 : x < 0
  · exact inUnit_zero fun b => by simp only [ppois, if_neg (not_not.2 h1), if_pos h2]
  by_cases h3 : isPosinf rate
  · exact inUnit_zero fun b => by simp only [ppois, if_neg (not_not.2 h1), if_neg h2, if_pos h3]
  refine inUnit_of_log (y := ppois_compute x rate) ?_ fun b => by
    simp only [ppois, if_neg (not_not.2 h1), if_neg h2, if_neg h3]
  rw [ppois_compute, if_pos h]
  exact (pn_igamma _ _).one_sub
example : InUnit (ppois 3 (fin 11)) := C09_ppois_partial _ _ (Or.inl (by simp [gt_iff_lt, ofNat_eq]; norm_num))

end Stats

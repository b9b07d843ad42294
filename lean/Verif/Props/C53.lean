import Verif.Props.C10
import Verif.Lemmas.Order
import Verif.Spec.Order
import Verif.Lemmas.Meets

/-!
# C53: parameters move the distribution functions the right way

First part: every monotone rounding and every library with monotone functions (`MonoLib`). The other families,
the quantiles and the draws are in `C53B`.
-/

set_option linter.unusedSectionVars false
open Classical
namespace Stats
open Fl Spec

section general
variable [Lib]

theorem both_of (hlog : MonotoneOn Lib.log (Set.Ioi 0)) {v w : Bool → Fl} (hv : LogForm v) (hw : LogForm w)
    (hP : PN (v false)) (h : v false ≤ w false) (b : Bool) : v b ≤ w b := by
  cases b
  · exact h
  · rw [hv, hw]
    exact log_mono' hlog (hP.nonneg (ne_nan_of_le_left h)) h

/-- What the comparisons below need to know about a distribution function. -/
structure RegCdf (F : Fl → Bool → Fl) : Prop where
  ends : EndsOK F
  log : ∀ x, LogForm (F x)
  pn : ∀ x : ℝ, PN (F (fin x) false)

theorem below_of (hlog : MonotoneOn Lib.log (Set.Ioi 0)) {F G : Fl → Bool → Fl} (hF : RegCdf F) (hG : RegCdf G)
    (h : ∀ x : ℝ, F (fin x) false ≤ G (fin x) false) : Below F G := by
  obtain ⟨a1, a2, a3, a4⟩ := hF.ends
  obtain ⟨b1, b2, b3, b4⟩ := hG.ends
  intro x hx
  cases x with
  | nan => exact absurd rfl hx
  | fin r => exact both_of hlog (hF.log _) (hG.log _) (hF.pn r) (h r)
  | ninf => intro b; cases b <;> simp [*]
  | pinf => intro b; cases b <;> simp [*]

theorem wider_of (hlog : MonotoneOn Lib.log (Set.Ioi 0)) {m : ℝ} {F G : Fl → Bool → Fl} (hF : RegCdf F)
    (hG : RegCdf G) (h : ∀ x : ℝ, m ≤ x → F (fin x) false ≤ G (fin x) false)
    (h' : ∀ x : ℝ, x ≤ m → G (fin x) false ≤ F (fin x) false) : WiderThan m F G := by
  obtain ⟨a1, a2, a3, a4⟩ := hF.ends
  obtain ⟨b1, b2, b3, b4⟩ := hG.ends
  constructor
  · intro x hx
    cases x with
    | nan => simp at hx
    | fin r => exact both_of hlog (hF.log _) (hG.log _) (hF.pn r) (h r (by simpa using hx))
    | ninf => simp at hx
    | pinf => intro b; cases b <;> simp [*]
  · intro x hx
    cases x with
    | nan => simp at hx
    | fin r => exact both_of hlog (hG.log _) (hF.log _) (hG.pn r) (h' r (by simpa using hx))
    | ninf => intro b; cases b <;> simp [*]
    | pinf => simp at hx

/-- dividing a non-negative number by more gives less -/
theorem div_anti_pos {z : Fl} (hz : fin 0 ≤ z) {s t : ℝ} (hs : 0 < s) (hst : s ≤ t) : z / fin t ≤ z / fin s := by
  have ht := hs.trans_le hst
  cases z with
  | nan => simp at hz
  | ninf => simp at hz
  | pinf => simp [pinf_div_fin, hs.le, ht.le]
  | fin r =>
    have hr : 0 ≤ r := by simpa using hz
    simp only [fin_div_fin, hs.ne', ht.ne', if_false, ofE_le_ofE]
    exact Lib.rnd_mono (by gcongr)

theorem div_anti_neg {z : Fl} (hz : z ≤ fin 0) {s t : ℝ} (hs : 0 < s) (hst : s ≤ t) : z / fin s ≤ z / fin t := by
  have ht := hs.trans_le hst
  cases z with
  | nan => simp at hz
  | pinf => simp at hz
  | ninf => simp [ninf_div_fin, hs.le, ht.le]
  | fin r =>
    have hr : r ≤ 0 := by simpa using hz
    simp only [fin_div_fin, hs.ne', ht.ne', if_false, ofE_le_ofE]
    refine Lib.rnd_mono ?_
    rw [div_le_div_iff₀ hs ht]
    nlinarith

theorem sub_nonneg_fl {x m : ℝ} (h : m ≤ x) : fin 0 ≤ fin x - fin m := by
  rw [fin_sub_fin]; simpa using rnd_nonneg (sub_nonneg.2 h)
theorem sub_nonpos_fl {x m : ℝ} (h : x ≤ m) : fin x - fin m ≤ fin 0 := by
  rw [fin_sub_fin]; simpa using Lib.rnd_mono (sub_nonpos.2 h)

end general

section mono
variable [Lib] [MonoLib]

theorem reg_pnorm (mu : ℝ) {sigma : ℝ} (hs : 0 ≤ sigma) : RegCdf fun x => pnorm x (fin mu) (fin sigma) :=
  ⟨C11_pnorm mu sigma hs, fun x => C07_pnorm x _ _, fun _ => (C09_pnorm _ _ _).1⟩
theorem reg_plnorm (mu : ℝ) {sigma : ℝ} (hs : 0 ≤ sigma) : RegCdf fun x => plnorm x (fin mu) (fin sigma) :=
  ⟨C11_plnorm mu sigma hs, fun x => C07_plnorm x _ _, fun _ => (C09_plnorm _ _ _).1⟩
theorem reg_pcauchy (mu : ℝ) {sigma : ℝ} (hs : 0 ≤ sigma) : RegCdf fun x => pcauchy x (fin mu) (fin sigma) :=
  ⟨C11_pcauchy mu sigma hs, fun x => C07_pcauchy x _ _, fun _ => (C09_pcauchy _ _ _).1⟩
theorem reg_plaplace (mu : ℝ) {sigma : ℝ} (hs : 0 ≤ sigma) : RegCdf fun x => plaplace x (fin mu) (fin sigma) :=
  ⟨C11_plaplace mu sigma hs, fun x => C07_plaplace x _ _, fun _ => (C09_plaplace _ _ _).1⟩
theorem reg_plogis (mu : ℝ) {sigma : ℝ} (hs : 0 ≤ sigma) : RegCdf fun x => plogis x (fin mu) (fin sigma) :=
  ⟨C11_plogis mu sigma hs, fun x => C07_plogis x _ _, fun _ => (C09_plogis _ _ _).1⟩
theorem reg_pexp {rate : ℝ} (hr : 0 < rate) : RegCdf fun x => pexp x (fin rate) :=
  ⟨C11_pexp_partial hr, fun x => C07_pexp x _, fun _ => (C09_pexp _ _).1⟩
theorem reg_pgamma {shape scale : ℝ} (hk : 0 ≤ shape) (hs : Lib.eps ≤ scale) :
    RegCdf fun x => pgamma x (fin shape) (fin scale) :=
  ⟨C11_pgamma shape scale hk hs, fun x => C07_pgamma x _ _, fun _ => (C09_pgamma _ _ _).1⟩
theorem reg_pweibull {shape scale : ℝ} (hk : Lib.eps ≤ shape) (hs : Lib.eps ≤ scale) :
    RegCdf fun x => pweibull x (fin shape) (fin scale) :=
  ⟨C11_pweibull shape scale hk hs, fun x => C07_pweibull x _ _, fun _ => (C09_pweibull _ _ _).1⟩

/-! ### Location -/

theorem C53_pnorm_mu {sigma : ℝ} (hs : 0 ≤ sigma) :
    FallsWith Set.univ fun mu x => pnorm x (fin mu) (fin sigma) := by
  intro s _ t _ hst
  refine below_of MonoLib.log_mono (reg_pnorm t hs) (reg_pnorm s hs) fun x => ?_
  have h0 : ¬ sigma < 0 := by linarith
  rcases hs.eq_or_lt with rfl | hs
  · simp [pnorm, norm_ok', norm_ok, pnorm_limit_vals]
    split_ifs with h1 h2
    · simp
    · exact absurd (hst.trans h1) h2
    · simp
    · simp
  · simp [pnorm, norm_ok', norm_ok, h0, hs.ne']
    exact pnorm_compute_mono (div_mono hs (const_sub_anti x (by simpa using hst)))
example : pnorm (fin 1) (fin 3) (fin 2) true ≤ pnorm (fin 1) (fin 0) (fin 2) true :=
  C53_pnorm_mu (by meets) 0 trivial 3 trivial (by meets) (fin 1) (by simp) true

theorem C53_plnorm_mu {sigma : ℝ} (hs : 0 ≤ sigma) :
    FallsWith Set.univ fun mu x => plnorm x (fin mu) (fin sigma) := by
  intro s hs' t ht hst
  refine below_of MonoLib.log_mono (reg_plnorm t hs) (reg_plnorm s hs) fun x => ?_
  have he := Lib.eps_pos
  have hok : ∀ m, lnorm_ok' (fin x) (fin m) (fin sigma) := by
    intro z; simp [lnorm_ok', lnorm_ok, hs]
  simp only [plnorm, hok, not_true, if_false, eps, gt_iff_lt, fin_lt_fin]
  split_ifs with h1
  · simp
  · refine C53_pnorm_mu hs s hs' t ht hst _ ?_ false
    exact ne_nan_of_le_left (log_mono (by simpa using he.le.trans (not_lt.1 h1)) (le_refl' (by simp)))
example : plnorm (fin 1) (fin 3) (fin 2) true ≤ plnorm (fin 1) (fin 0) (fin 2) true :=
  C53_plnorm_mu (by meets) 0 trivial 3 trivial (by meets) (fin 1) (by simp) true

theorem C53_pcauchy_mu {sigma : ℝ} (hs : 0 < sigma) :
    FallsWith Set.univ fun mu x => pcauchy x (fin mu) (fin sigma) := by
  intro s _ t _ hst
  refine below_of MonoLib.log_mono (reg_pcauchy t hs.le) (reg_pcauchy s hs.le) fun x => ?_
  have h0 : ¬ sigma < 0 := by linarith
  simp [pcauchy, cauchy_ok', cauchy_ok, h0, pcauchy_compute, -half_eq]
  rw [half_eq]
  exact add_mono _ (div_mono Lib.pi_pos (atan_mono (div_mono hs (const_sub_anti x (by simpa using hst)))))
example : pcauchy (fin 1) (fin 3) (fin 2) true ≤ pcauchy (fin 1) (fin 0) (fin 2) true :=
  C53_pcauchy_mu (by meets) 0 trivial 3 trivial (by meets) (fin 1) (by simp) true

theorem C53_plaplace_mu {sigma : ℝ} (hs : 0 ≤ sigma) :
    FallsWith Set.univ fun mu x => plaplace x (fin mu) (fin sigma) := by
  intro s _ t _ hst
  refine below_of MonoLib.log_mono (reg_plaplace t hs) (reg_plaplace s hs) fun x => ?_
  have h0 : ¬ sigma < 0 := by linarith
  have hsub : fin x - fin t ≤ fin x - fin s := const_sub_anti x (by simpa using hst)
  rcases hs.eq_or_lt with rfl | hs
  · simp [plaplace, laplace_ok', laplace_ok, plaplace_limit_vals, -half_eq]
    rw [half_eq]
    exact add_mono _ (mul_mono (by norm_num) (sgn_mono hsub))
  · simp [plaplace, laplace_ok', laplace_ok, h0, hs.ne']
    exact plaplace_compute_mono hs hsub
example : plaplace (fin 1) (fin 3) (fin 2) true ≤ plaplace (fin 1) (fin 0) (fin 2) true :=
  C53_plaplace_mu (by meets) 0 trivial 3 trivial (by meets) (fin 1) (by simp) true

/-- Logistic, whenever `2 * sigma` rounds to a positive number (no overflow). -/
theorem C53_plogis_mu {sigma : ℝ} (hs : 0 ≤ sigma) (hw : sigma ≠ 0 → ∃ c, 0 < c ∧ fin 2 * fin sigma = fin c) :
    FallsWith Set.univ fun mu x => plogis x (fin mu) (fin sigma) := by
  intro s _ t _ hst
  refine below_of MonoLib.log_mono (reg_plogis t hs) (reg_plogis s hs) fun x => ?_
  have h0 : ¬ sigma < 0 := by linarith
  have hsub : fin x - fin t ≤ fin x - fin s := const_sub_anti x (by simpa using hst)
  rcases hs.eq_or_lt with rfl | hs
  · simp [plogis, logis_ok', logis_ok, plogis_limit_vals, -half_eq]
    rw [half_eq]
    exact add_mono _ (mul_mono (by norm_num) (sgn_mono hsub))
  · obtain ⟨c, hc, e⟩ := hw hs.ne'
    simp [plogis, logis_ok', logis_ok, h0, hs.ne', plogis_compute, e, -half_eq]
    rw [half_eq]
    exact mul_mono (by norm_num) (add_mono 1 (tanh_mono (div_mono hc hsub)))

/-! ### Scale of the families on the whole line -/

theorem C53_pnorm_sigma (mu : ℝ) : SpreadsWith (Set.Ioi 0) mu fun sigma x => pnorm x (fin mu) (fin sigma) := by
  intro s hs t ht hst
  have hs : 0 < s := hs
  have ht : 0 < t := ht
  have h1 : ¬ s < 0 := by linarith
  have h2 : ¬ t < 0 := by linarith
  refine wider_of MonoLib.log_mono (reg_pnorm mu ht.le) (reg_pnorm mu hs.le) ?_ ?_ <;> intro x hx <;>
    simp [pnorm, norm_ok', norm_ok, h1, h2, hs.ne', ht.ne']
  · exact pnorm_compute_mono (div_anti_pos (sub_nonneg_fl hx) hs hst)
  · exact pnorm_compute_mono (div_anti_neg (sub_nonpos_fl hx) hs hst)
example : pnorm (fin 4) (fin 3) (fin 5) true ≤ pnorm (fin 4) (fin 3) (fin 2) true :=
  (C53_pnorm_sigma 3 2 (by meets) 5 (by meets) (by meets)).1 (fin 4) (by meets) true
example : pnorm (fin 1) (fin 3) (fin 2) false ≤ pnorm (fin 1) (fin 3) (fin 5) false :=
  (C53_pnorm_sigma 3 2 (by meets) 5 (by meets) (by meets)).2 (fin 1) (by meets) false

theorem C53_pcauchy_sigma (mu : ℝ) : SpreadsWith (Set.Ioi 0) mu fun sigma x => pcauchy x (fin mu) (fin sigma) := by
  intro s hs t ht hst
  have hs : 0 < s := hs
  have ht : 0 < t := ht
  have h1 : ¬ s < 0 := by linarith
  have h2 : ¬ t < 0 := by linarith
  refine wider_of MonoLib.log_mono (reg_pcauchy mu ht.le) (reg_pcauchy mu hs.le) ?_ ?_ <;> intro x hx <;>
    simp [pcauchy, cauchy_ok', cauchy_ok, h1, h2, pcauchy_compute, -half_eq] <;> rw [half_eq]
  · exact add_mono _ (div_mono Lib.pi_pos (atan_mono (div_anti_pos (sub_nonneg_fl hx) hs hst)))
  · exact add_mono _ (div_mono Lib.pi_pos (atan_mono (div_anti_neg (sub_nonpos_fl hx) hs hst)))
example : pcauchy (fin 4) (fin 3) (fin 5) true ≤ pcauchy (fin 4) (fin 3) (fin 2) true :=
  (C53_pcauchy_sigma 3 2 (by meets) 5 (by meets) (by meets)).1 (fin 4) (by meets) true
example : pcauchy (fin 1) (fin 3) (fin 2) false ≤ pcauchy (fin 1) (fin 3) (fin 5) false :=
  (C53_pcauchy_sigma 3 2 (by meets) 5 (by meets) (by meets)).2 (fin 1) (by meets) false

/-- Logistic; `2 * s` and `2 * t` must not overflow. -/
theorem C53_plogis_sigma (mu : ℝ) :
    SpreadsWith {s | 0 < s ∧ ∃ c, 0 < c ∧ fin 2 * fin s = fin c} mu fun sigma x => plogis x (fin mu) (fin sigma) := by
  intro s hs t ht hst
  obtain ⟨hs, c, hc, ec⟩ := hs
  obtain ⟨ht, d, hd, ed⟩ := ht
  have h1 : ¬ s < 0 := by linarith
  have h2 : ¬ t < 0 := by linarith
  have hcd : c ≤ d := by
    rw [fin_mul_fin] at ec ed
    have h : ofE (Lib.rnd (2 * s)) ≤ ofE (Lib.rnd (2 * t)) := by
      rw [ofE_le_ofE]; exact Lib.rnd_mono (by linarith)
    rw [ec, ed] at h
    simpa using h
  refine wider_of MonoLib.log_mono (reg_plogis mu ht.le) (reg_plogis mu hs.le) ?_ ?_ <;> intro x hx <;>
    simp [plogis, logis_ok', logis_ok, h1, h2, hs.ne', ht.ne', plogis_compute, ec, ed, -half_eq] <;> rw [half_eq]
  · exact mul_mono (by norm_num) (add_mono 1 (tanh_mono (div_anti_pos (sub_nonneg_fl hx) hc hcd)))
  · exact mul_mono (by norm_num) (add_mono 1 (tanh_mono (div_anti_neg (sub_nonpos_fl hx) hc hcd)))

theorem plaplace_compute_sigma {z : Fl} (hz : z ≠ nan) {s t : ℝ} (hs : 0 < s) (hst : s ≤ t) :
    (fin 0 ≤ z → plaplace_compute z (fin t) ≤ plaplace_compute z (fin s)) ∧
      (z ≤ fin 0 → plaplace_compute z (fin s) ≤ plaplace_compute z (fin t)) := by
  have ht := hs.trans_le hst
  have ha : fin 0 ≤ abs z := by cases z <;> simp_all
  -- the exponential grows with the scale
  have hE : 1 - exp (-abs z / fin t) ≤ 1 - exp (-abs z / fin s) := by
    rw [one_eq, neg_div_fl _ (nn_fin ht.le) (by simpa using ht.ne'), neg_div_fl _ (nn_fin hs.le) (by simpa using hs.ne')]
    exact const_sub_anti 1 (exp_mono (neg_anti (div_anti_pos ha hs hst)))
  have hb : ∀ {c : ℝ}, 0 < c → Btw 0 1 (1 - exp (-abs z / fin c)) := by
    intro c hc
    apply Btw.one_sub
    rw [neg_div_fl _ (nn_fin hc.le) (by simpa using hc.ne')]
    apply btw_exp_nonpos
    have h0 : fin 0 ≤ abs z / fin c := by
      have := div_mono hc ha
      rwa [fin_div_fin, if_neg hc.ne', zero_div, rnd_zero, ofE_zero] at this
    have h3 := neg_anti h0
    revert h3
    cases abs z / fin c <;> simp
  have hm1 : half * fin 1 = half := by rw [half_eq, fin_mul_fin]; simp
  have hm2 : half * fin (-1) = -half := by
    rw [half_eq, fin_mul_fin]
    have : (1 / 2 : ℝ) * -1 = -(1 / 2) := by ring
    rw [this, Lib.rnd_neg, rnd_onehalf]; simp [ofE_neg]
  have hm3 : half * fin 0 = fin 0 := by rw [half_eq, fin_mul_fin]; simp
  have hz0 : ∀ {c : ℝ}, 0 < c → fin 0 * (1 - exp (-abs z / fin c)) = fin 0 := by
    intro c hc
    obtain ⟨r, hr, _, _⟩ := hb hc
    rw [hr, fin_mul_fin]; simp
  unfold plaplace_compute
  constructor
  · intro h
    rw [half_eq, ← half_eq]; conv_lhs => rw [half_eq, ← half_eq]
    apply add_mono
    rcases sgn_cases z with h1 | h1 | h1 <;> simp only [h1, hm1, hm2, hm3]
    · rw [half_eq]; exact mul_mono (by norm_num) hE
    · exact absurd (lt_of_le_of_lt' h (sgn_eq_neg_one h1)) (by simp)
    · rw [hz0 hs, hz0 ht]; simp
  · intro h
    rw [half_eq, ← half_eq]; conv_lhs => rw [half_eq, ← half_eq]
    apply add_mono
    rcases sgn_cases z with h1 | h1 | h1 <;> simp only [h1, hm1, hm2, hm3]
    · exact absurd (lt_of_lt_of_le' (sgn_eq_one h1) h) (by simp)
    · rw [neg_mul_fl, neg_mul_fl, half_eq]; exact neg_anti (mul_mono (by norm_num) hE)
    · rw [hz0 hs, hz0 ht]; simp

theorem C53_plaplace_sigma (mu : ℝ) : SpreadsWith (Set.Ioi 0) mu fun sigma x => plaplace x (fin mu) (fin sigma) := by
  intro s hs t ht hst
  have hs : 0 < s := hs
  have ht : 0 < t := ht
  have h1 : ¬ s < 0 := by linarith
  have h2 : ¬ t < 0 := by linarith
  refine wider_of MonoLib.log_mono (reg_plaplace mu ht.le) (reg_plaplace mu hs.le) ?_ ?_ <;> intro x hx <;>
    simp [plaplace, laplace_ok', laplace_ok, h1, h2, hs.ne', ht.ne']
  · have := sub_nonneg_fl hx
    exact (plaplace_compute_sigma (ne_nan_of_le_right this) hs hst).1 this
  · have := sub_nonpos_fl hx
    exact (plaplace_compute_sigma (ne_nan_of_le_left this) hs hst).2 this
example : plaplace (fin 4) (fin 3) (fin 5) true ≤ plaplace (fin 4) (fin 3) (fin 2) true :=
  (C53_plaplace_sigma 3 2 (by meets) 5 (by meets) (by meets)).1 (fin 4) (by meets) true
example : plaplace (fin 1) (fin 3) (fin 2) false ≤ plaplace (fin 1) (fin 3) (fin 5) false :=
  (C53_plaplace_sigma 3 2 (by meets) 5 (by meets) (by meets)).2 (fin 1) (by meets) false

/-! ### Rate and scale of the families on the positive axis -/

theorem C53_pexp_rate : RisesWith (Set.Ioi 0) fun rate x => pexp x (fin rate) := by
  intro s hs t ht hst
  have hs : 0 < s := hs
  have ht : 0 < t := ht
  refine below_of MonoLib.log_mono (reg_pexp hs) (reg_pexp ht) fun x => ?_
  have h1 : ¬ s < 0 := by linarith
  have h2 : ¬ t < 0 := by linarith
  simp only [pexp, exp_ok', exp_ok, pexp_compute]
  simp [h1, h2, -fin_le_fin, -neg_fin]
  simp only [fin_le_fin]
  split_ifs with hx
  · simp
  · rw [neg_mul_fl, neg_mul_fl]
    refine neg_anti (expm1_mono (neg_anti ?_))
    rw [fin_mul_fin, fin_mul_fin, ofE_le_ofE]
    have hx : 0 < x := not_le.1 hx
    exact Lib.rnd_mono (by gcongr)
example : pexp (fin 1) (fin 2) false ≤ pexp (fin 1) (fin 3) false :=
  C53_pexp_rate 2 (by meets) 3 (by meets) (by meets) (fin 1) (by simp) false

theorem C53_pgamma_scale {shape : ℝ} (hk : 0 ≤ shape) :
    FallsWith (Set.Ici Lib.eps) fun scale x => pgamma x (fin shape) (fin scale) := by
  intro s hs t ht hst
  have hs : Lib.eps ≤ s := hs
  have ht : Lib.eps ≤ t := ht
  have he := Lib.eps_pos
  refine below_of MonoLib.log_mono (reg_pgamma hk ht) (reg_pgamma hk hs) fun x => ?_
  have h0 : ¬ shape < 0 := by linarith
  have h1 : ¬ s < Lib.eps := by linarith
  have h2 : ¬ t < Lib.eps := by linarith
  rcases lt_or_ge x Lib.eps with hx | hx
  · simp [pgamma, gamma_ok', gamma_ok, eps, h0, h1, h2, hx]
  · have c1 : ¬ x < Lib.eps := by linarith
    rcases hk.eq_or_lt with rfl | hk
    · simp [pgamma, gamma_ok', gamma_ok, eps, h1, h2, c1, pgamma_limit_vals]
    · simp [pgamma, gamma_ok', gamma_ok, eps, h0, h1, h2, c1, hk.ne', pgamma_compute]
      have hx0 : fin 0 ≤ fin x := by simpa using he.le.trans hx
      refine igamma_mono hk ?_ (div_anti_pos hx0 (he.trans_le hs) hst)
      rw [fin_div_fin, if_neg (he.trans_le ht).ne']
      simpa using rnd_nonneg (div_nonneg (he.le.trans hx) (he.le.trans ht))
example : pgamma (fin 1) (fin 5) (fin 3) false ≤ pgamma (fin 1) (fin 5) (fin 2) false :=
  C53_pgamma_scale (by meets) 2 (Set.mem_Ici.2 (by meets)) 3 (Set.mem_Ici.2 (by meets)) (by meets) (fin 1) (by simp) false

theorem C53_pweibull_scale {shape : ℝ} (hk : Lib.eps ≤ shape) :
    FallsWith (Set.Ici Lib.eps) fun scale x => pweibull x (fin shape) (fin scale) := by
  intro s hs t ht hst
  have hs : Lib.eps ≤ s := hs
  have ht : Lib.eps ≤ t := ht
  have he := Lib.eps_pos
  refine below_of MonoLib.log_mono (reg_pweibull hk ht) (reg_pweibull hk hs) fun x => ?_
  have h0 : ¬ shape < Lib.eps := by linarith
  have h1 : ¬ s < Lib.eps := by linarith
  have h2 : ¬ t < Lib.eps := by linarith
  rcases lt_or_ge x Lib.eps with hx | hx
  · simp [pweibull, weibull_ok', weibull_ok, eps, h0, h1, h2, hx]
  · have c1 : ¬ x < Lib.eps := by linarith
    simp [pweibull, weibull_ok', weibull_ok, eps, h0, h1, h2, c1, pweibull_compute]
    have hx0 : fin 0 ≤ fin x := by simpa using he.le.trans hx
    refine neg_anti (expm1_mono (neg_anti (pow_mono (he.trans_le hk) ?_ (div_anti_pos hx0 (he.trans_le hs) hst))))
    rw [fin_div_fin, if_neg (he.trans_le ht).ne']
    simpa using rnd_nonneg (div_nonneg (he.le.trans hx) (he.le.trans ht))
example : pweibull (fin 1) (fin 5) (fin 3) false ≤ pweibull (fin 1) (fin 5) (fin 2) false :=
  C53_pweibull_scale (by meets) 2 (Set.mem_Ici.2 (by meets)) 3 (Set.mem_Ici.2 (by meets)) (by meets) (fin 1) (by simp) false

/-! ### Success probability -/

theorem C53_pbern : FallsWithZ (Set.Icc (0 : ℝ) 1) fun p k => pbern k (fin p) := by
  intro s hs t ht hst k
  have e1 : ¬ s < 0 := by linarith [hs.1]
  have e2 : ¬ 1 < s := by linarith [hs.2]
  have e3 : ¬ t < 0 := by linarith [ht.1]
  have e4 : ¬ 1 < t := by linarith [ht.2]
  have h : fin 1 - fin t ≤ fin 1 - fin s := const_sub_anti 1 (fin_le_fin.2 hst)
  refine both_of MonoLib.log_mono (C07_pbern k _) (C07_pbern k _) ?_ ?_
  · exact (C09_pbern _ _).1
  · simp only [pbern, bern_ok, pbern_compute]
    simp [e1, e2, e3, e4]
    split_ifs <;> first | exact h | simp
example : pbern 0 (fin (1 / 2)) true ≤ pbern 0 (fin (1 / 3)) true :=
  C53_pbern (1 / 3) (by meets) (1 / 2) (by meets) (by meets) 0 true

theorem C53_pradem : FallsWithZ (Set.Icc (0 : ℝ) 1) fun p k => pradem k (fin p) := by
  intro s hs t ht hst k
  have e1 : ¬ s < 0 := by linarith [hs.1]
  have e2 : ¬ 1 < s := by linarith [hs.2]
  have e3 : ¬ t < 0 := by linarith [ht.1]
  have e4 : ¬ 1 < t := by linarith [ht.2]
  have h : fin 1 - fin t ≤ fin 1 - fin s := const_sub_anti 1 (fin_le_fin.2 hst)
  refine both_of MonoLib.log_mono (C07_pradem k _) (C07_pradem k _) ?_ ?_
  · exact (C09_pradem _ _).1
  · simp only [pradem, radem_ok, pradem_compute]
    simp [e1, e2, e3, e4]
    split_ifs <;> first | exact h | simp
example : pradem 0 (fin (1 / 2)) true ≤ pradem 0 (fin (1 / 3)) true :=
  C53_pradem (1 / 3) (by meets) (1 / 2) (by meets) (by meets) 0 true

end mono
end Stats

import Verif.Props.C05
import Verif.Props.C06
import Verif.Props.C53
import Verif.Spec.Mode
import Verif.Lemmas.Meets

/-!
# C54: densities rise up to their mode and fall after it

First part: every monotone rounding and every library with monotone functions (`MonoLib`). Rounding may flatten a
density (equal values at different points) but never makes it rise where it should fall. The exact shapes of all
families are in `C54B`.
-/

set_option linter.unusedSectionVars false
open Classical
namespace Stats
open Fl Spec
variable [Lib]

theorem fl_lt_of_lt_of_le {x y z : Fl} (h : x < y) (h' : y ≤ z) : x < z := by
  cases x <;> cases y <;> cases z <;> simp_all; linarith
theorem fl_lt_of_le_of_lt {x y z : Fl} (h : x ≤ y) (h' : y < z) : x < z := by
  cases x <;> cases y <;> cases z <;> simp_all; linarith

theorem sq_anti {x y : Fl} (h : x ≤ y) (hy : y ≤ fin 0) : y * y ≤ x * x := by
  cases x <;> cases y <;> simp_all [fin_mul_fin]
  refine Lib.rnd_mono ?_
  nlinarith

theorem sq_mono {x y : Fl} (hx : fin 0 ≤ x) (h : x ≤ y) : x * x ≤ y * y := by
  cases x <;> cases y <;> simp_all [fin_mul_fin]
  refine Lib.rnd_mono ?_
  nlinarith

theorem mul_anti_neg {x y : Fl} {c : ℝ} (hc : c < 0) (h : x ≤ y) : fin c * y ≤ fin c * x := by
  have h1 : ¬ 0 < c := by linarith
  have h2 : c ≠ 0 := hc.ne
  cases x <;> cases y <;> first | (simp at h; done) | skip
  all_goals simp only [fin_mul_fin, fin_mul_pinf, fin_mul_ninf, h1, h2, if_false]
  all_goals first | (simp; done) | skip
  rename_i r s
  have h : r ≤ s := by simpa using h
  simpa using Lib.rnd_mono (mul_le_mul_of_nonpos_left h hc.le)

theorem mul_const_mono {x y : Fl} {c : ℝ} (hc : 0 < c) (h : x ≤ y) : x * fin c ≤ y * fin c := by
  have h2 : c ≠ 0 := hc.ne'
  cases x <;> cases y <;> simp_all [fin_mul_fin, pinf_mul_fin, ninf_mul_fin]
  refine Lib.rnd_mono ?_
  nlinarith

theorem one_div_anti0 {x y : Fl} (h0 : fin 0 ≤ x) (h : x ≤ y) : fin 1 / y ≤ fin 1 / x := by
  cases x with
  | nan => simp at h0
  | ninf => simp at h0
  | pinf => cases y <;> simp_all
  | fin r =>
    have hr : 0 ≤ r := by simpa using h0
    cases y with
    | nan => simp at h
    | ninf => simp at h
    | pinf =>
      rw [fin_div_fin, fin_div_pinf]
      split_ifs
      · simp_all
      · simp
      · simp_all
      · simpa using rnd_nonneg (inv_nonneg.2 hr)
    | fin s =>
      have hs : r ≤ s := by simpa using h
      rcases hr.eq_or_lt with rfl | hr
      · rw [fin_div_fin _ 0]; simp [fin_div_fin]; split_ifs <;> simp
      · exact one_div_anti hr hs

theorem exp_if_le [MonoLib] {x y : Fl} (h : x ≤ y) (b : Bool) : exp_if x b ≤ exp_if y b := by
  cases b
  · exact h
  · exact exp_mono h

theorem log_if_le [MonoLib] {x y : Fl} (h0 : fin 0 ≤ x) (h : x ≤ y) (b : Bool) : log_if x b ≤ log_if y b := by
  cases b
  · exact h
  · exact log_mono h0 h

theorem nonneg_of_nn {x : Fl} (h : ¬ x < 0) (hx : x ≠ nan) : fin 0 ≤ x := by
  cases x <;> simp_all

theorem div_nonneg_fl {z : Fl} (h : fin 0 ≤ z) {c : ℝ} (hc : 0 < c) : fin 0 ≤ z / fin c := by
  have := div_mono hc h
  rwa [show fin 0 / fin c = fin 0 by simp [fin_div_fin, hc.ne']] at this

theorem div_nonpos_fl {z : Fl} (h : z ≤ fin 0) {c : ℝ} (hc : 0 < c) : z / fin c ≤ fin 0 := by
  have := div_mono hc h
  rwa [show fin 0 / fin c = fin 0 by simp [fin_div_fin, hc.ne']] at this

theorem abs_mono0 {x y : Fl} (h0 : fin 0 ≤ x) (h : x ≤ y) : abs x ≤ abs y := by
  cases x <;> cases y <;> simp_all
  rwa [abs_of_nonneg h0, abs_of_nonneg (h0.trans h)]

theorem abs_anti0 {x y : Fl} (h : x ≤ y) (h0 : y ≤ fin 0) : abs y ≤ abs x := by
  cases x <;> cases y <;> simp_all
  rw [abs_of_nonpos h0, abs_of_nonpos (h.trans h0)]; linarith

/-- A density that vanishes at both infinities and is unimodal on the reals is unimodal. -/
theorem unimodal_of_on {m : ℝ} {d : Fl → Bool → Fl} (h : UnimodalOn Set.univ m d) (hn : VanishesAt (d ninf))
    (hp : VanishesAt (d pinf)) (h0 : ∀ x : ℝ, ¬ d (fin x) false < 0) : Unimodal m d := by
  have hz : ∀ (x : ℝ) v, VanishesAt v → ∀ b, v b ≤ d (fin x) b := by
    intro x v hv b
    have hx : ∀ b, d (fin x) b ≠ nan := by
      rcases le_total x m with hx | hx
      · exact fun b => ne_nan_of_le_left (h.1 x trivial x trivial le_rfl hx b)
      · exact fun b => ne_nan_of_le_left (h.2 x trivial x trivial hx le_rfl b)
    cases b
    · rw [hv.1]; exact nonneg_of_nn (h0 x) (hx false)
    · rw [hv.2]; exact ninf_le (hx true)
  have hzz : ∀ v w : Bool → Fl, VanishesAt v → VanishesAt w → ∀ b, v b ≤ w b := by
    intro v w hv hw b
    cases b
    · rw [hv.1, hw.1]; simp
    · rw [hv.2, hw.2]; simp
  constructor
  · intro x y hxy hy
    cases x <;> cases y <;> first | (simp at hxy; done) | (simp at hy; done) | skip
    · exact hzz _ _ hn hn
    · exact hz _ _ hn
    · exact h.1 _ trivial _ trivial (by simpa using hxy) (by simpa using hy)
  · intro x y hx hxy
    cases x <;> cases y <;> first | (simp at hxy; done) | (simp at hx; done) | skip
    · exact h.2 _ trivial _ trivial (by simpa using hx) (by simpa using hxy)
    · exact hz _ _ hp
    · exact hzz _ _ hp hp

theorem outside_ninf (s : Set ℝ) : Outside s ninf := ⟨by simp, by simp⟩
theorem outside_pinf (s : Set ℝ) : Outside s pinf := ⟨by simp, by simp⟩

section mono
variable [MonoLib]

/-- Normal density: for every rounding, provided the constant `-log(2π)/2 - log σ` is a finite number. -/
theorem C54_dnorm (mu : ℝ) {sigma : ℝ} (hs : 0 < sigma) (hc : ∃ c, -half * LOG2PI - log (fin sigma) = fin c) :
    Unimodal mu fun x => dnorm x (fin mu) (fin sigma) := by
  obtain ⟨c, hc⟩ := hc
  have h0 : ¬ sigma < 0 := by linarith
  have hc : fin (-2⁻¹) * LOG2PI - log (fin sigma) = fin c := by simpa using hc
  have e : ∀ x b, dnorm (fin x) (fin mu) (fin sigma) b =
      exp_if (fin c - (fin x - fin mu) / fin sigma * ((fin x - fin mu) / fin sigma) / fin 2) (!b) := by
    intro x b
    simp [dnorm, norm_ok', norm_ok, h0, hs.ne', dnorm_log_compute, hc]
  refine unimodal_of_on ⟨fun x _ y _ hxy hy b => ?_, fun x _ y _ hx hxy b => ?_⟩
    (C05_dnorm (outside_ninf _) mu sigma hs.le) (C05_dnorm (outside_pinf _) mu sigma hs.le) fun x => C06_dnorm _ _ _
  · beta_reduce
    rw [e, e]
    exact exp_if_le (const_sub_anti c (div_mono two_pos (sq_anti (div_mono hs (sub_mono mu (by simpa using hxy)))
      (div_nonpos_fl (sub_nonpos_fl hy) hs)))) _
  · beta_reduce
    rw [e, e]
    exact exp_if_le (const_sub_anti c (div_mono two_pos (sq_mono (div_nonneg_fl (sub_nonneg_fl hx) hs)
      (div_mono hs (sub_mono mu (by simpa using hxy)))))) _
example [Ideal] : dnorm (fin 7) (fin 3) (fin 2) true ≤ dnorm (fin 4) (fin 3) (fin 2) true :=
  (C54_dnorm 3 (by meets) ⟨_, by simp [ilog (show (0 : ℝ) < 2 by norm_num), ideal]; rfl⟩).2 (fin 4) (fin 7) (by meets) (by meets) true

/-- Laplace density, provided `log(2σ)` is a finite number. -/
theorem C54_dlaplace (mu : ℝ) {sigma : ℝ} (hs : 0 < sigma) (hc : ∃ c, log (2 * fin sigma) = fin c) :
    Unimodal mu fun x => dlaplace x (fin mu) (fin sigma) := by
  obtain ⟨c, hc⟩ := hc
  have h0 : ¬ sigma < 0 := by linarith
  have hc : log (fin 2 * fin sigma) = fin c := by simpa using hc
  have e : ∀ x b, dlaplace (fin x) (fin mu) (fin sigma) b =
      exp_if (fin (-c) - abs (fin x - fin mu) / fin sigma) (!b) := by
    intro x b
    simp [dlaplace, laplace_ok', laplace_ok, h0, hs.ne', dlaplace_log_compute, hc]
  refine unimodal_of_on ⟨fun x _ y _ hxy hy b => ?_, fun x _ y _ hx hxy b => ?_⟩
    (C05_dlaplace (outside_ninf _) mu sigma hs.le) (C05_dlaplace (outside_pinf _) mu sigma hs.le)
    fun x => C06_dlaplace _ _ _
  · beta_reduce
    rw [e, e]
    exact exp_if_le (const_sub_anti _ (div_mono hs (abs_anti0 (sub_mono mu (by simpa using hxy)) (sub_nonpos_fl hy)))) _
  · beta_reduce
    rw [e, e]
    exact exp_if_le (const_sub_anti _ (div_mono hs (abs_mono0 (sub_nonneg_fl hx) (sub_mono mu (by simpa using hxy))))) _
example [Ideal] : dlaplace ninf (fin 3) (fin 2) false ≤ dlaplace (fin 1) (fin 3) (fin 2) false :=
  (C54_dlaplace 3 (by meets) ⟨_, by simp [ilog (show (0 : ℝ) < 2 * 2 by norm_num), ideal]; rfl⟩).1 ninf (fin 1) (by meets) (by meets) false

/-- Cauchy density, provided `σπ` is a positive finite number (it may round to 0 or overflow). -/
theorem C54_dcauchy (mu : ℝ) {sigma : ℝ} (hs : 0 < sigma) (hc : ∃ c, 0 < c ∧ fin sigma * PI = fin c) :
    Unimodal mu fun x => dcauchy x (fin mu) (fin sigma) := by
  obtain ⟨c, c0, hc⟩ := hc
  have h0 : ¬ sigma < 0 := by linarith
  have e : ∀ x b, dcauchy (fin x) (fin mu) (fin sigma) b =
      log_if (fin 1 / (fin c * (fin 1 + (fin x - fin mu) / fin sigma * ((fin x - fin mu) / fin sigma)))) b := by
    intro x b
    simp [dcauchy, cauchy_ok', cauchy_ok, h0, dcauchy_compute, hc]
  have hmul : ∀ z w : Fl, z * z ≤ w * w → z ≠ nan → ∀ b,
      log_if (fin 1 / (fin c * (fin 1 + w * w))) b ≤ log_if (fin 1 / (fin c * (fin 1 + z * z))) b := by
    intro z w hzw hz b
    have hz0 : fin 0 ≤ z * z := by
      cases z <;> simp_all [fin_mul_fin]
      exact rnd_nonneg (mul_self_nonneg _)
    have h1 : fin 0 ≤ fin 1 + z * z := le_trans' (by simp [fin_add_fin]) (add_mono 1 hz0)
    have h2 : fin 0 ≤ fin c * (fin 1 + z * z) := le_trans' (by simp [fin_mul_fin]) (mul_mono c0 h1)
    have h3 := one_div_anti0 h2 (mul_mono c0 (add_mono 1 hzw))
    have h4 : fin 0 ≤ fin c * (fin 1 + w * w) := le_trans' h2 (mul_mono c0 (add_mono 1 hzw))
    exact log_if_le (nonneg_of_nn (NN.div (nn_fin zero_le_one) (nn_le.1 h4).2) (ne_nan_of_le_left h3)) h3 b
  refine unimodal_of_on ⟨fun x _ y _ hxy hy b => ?_, fun x _ y _ hx hxy b => ?_⟩
    (C05_dcauchy (outside_ninf _) mu sigma hs.le) (C05_dcauchy (outside_pinf _) mu sigma hs.le)
    fun x => C06_dcauchy _ _ _
  · beta_reduce
    rw [e, e]
    have h1 := div_mono hs (sub_mono mu (show fin x ≤ fin y by simpa using hxy))
    exact hmul _ _ (sq_anti h1 (div_nonpos_fl (sub_nonpos_fl hy) hs)) (ne_nan_of_le_right h1) _
  · beta_reduce
    rw [e, e]
    have h1 := div_mono hs (sub_mono mu (show fin x ≤ fin y by simpa using hxy))
    exact hmul _ _ (sq_mono (div_nonneg_fl (sub_nonneg_fl hx) hs) h1) (ne_nan_of_le_left h1) _
example [Ideal] : dcauchy pinf (fin 3) (fin 2) true ≤ dcauchy (fin 4) (fin 3) (fin 2) true :=
  (C54_dcauchy 3 (by meets) ⟨2 * Real.pi, by positivity, by simp [ideal]⟩).2 (fin 4) pinf
    (by meets) (by meets) true

/-- `x/d*x` grows with the distance from 0 -/
theorem divmul_mono {d : ℝ} (hd : 0 < d) {x y : ℝ} (hx : 0 ≤ x) (h : x ≤ y) :
    fin x / fin d * fin x ≤ fin y / fin d * fin y := by
  have hy := hx.trans h
  rcases hx.eq_or_lt with rfl | hx
  · have e : fin 0 / fin d * fin 0 = fin 0 := by simp [fin_div_fin, hd.ne', fin_mul_fin]
    rw [e]
    rcases hy.eq_or_lt with rfl | hy
    · rw [e]; simp
    · have := mul_const_mono hy (div_nonneg_fl (z := fin y) (by simpa using hy.le) hd)
      rwa [show fin 0 * fin y = fin 0 by simp [fin_mul_fin]] at this
  · refine le_trans' (mul_const_mono hx (div_mono hd (show fin x ≤ fin y by simpa using h))) ?_
    have hy' : y ≠ 0 := (hx.trans_le h).ne'
    have hq : fin 0 ≤ fin y / fin d := div_nonneg_fl (by simpa using hy) hd
    generalize fin y / fin d = q at hq
    cases q with
    | nan => simp at hq
    | ninf => simp at hq
    | pinf => simp [pinf_mul_fin, hx.ne', hx, hy', hx.trans_le h]
    | fin q =>
      have hq : 0 ≤ q := by simpa using hq
      simpa [fin_mul_fin] using Lib.rnd_mono (mul_le_mul_of_nonneg_left h hq)

/-- Student's t density, provided its constants are finite numbers. -/
theorem C54_dt {dof : ℝ} (hd : Lib.eps ≤ dof) (hk : ∃ k, 0 < k ∧ fin dof / 2 + half = fin k)
    (hc : ∃ c, dt_log_cons_term (fin dof) = fin c) : Unimodal 0 fun x => dt x (fin dof) := by
  obtain ⟨k, k0, hk⟩ := hk
  obtain ⟨c, hc⟩ := hc
  have hd0 := Lib.eps_pos.trans_le hd
  have h0 : ¬ dof < Lib.eps := by linarith
  have e : ∀ x b, dt (fin x) (fin dof) b =
      exp_if (fin c + fin (-k) * log (fin 1 + fin x / fin dof * fin x)) (!b) := by
    intro x b
    rw [dt, if_neg (by simp [t_ok', t_ok, eps, hd]), if_neg (by simp), if_neg (by simp), dt_log_compute, hc,
      dt_log_mult_term, hk]
    simp
  have hsym : ∀ x b, dt (fin (-x)) (fin dof) b = dt (fin x) (fin dof) b := by
    intro x b
    rw [e, e, show fin (-x) / fin dof * fin (-x) = fin x / fin dof * fin x from ?_]
    have h1 : fin (-x) / fin dof = -(fin x / fin dof) := by
      rw [fin_div_fin, fin_div_fin, if_neg hd0.ne', if_neg hd0.ne', neg_div, Lib.rnd_neg, ofE_neg]
    rw [h1]
    generalize fin x / fin dof = q
    cases q with
    | nan => simp
    | pinf =>
      rcases lt_trichotomy x 0 with hx | rfl | hx
      · simp [pinf_mul_fin, ninf_mul_fin, hx.ne, hx, not_lt.2 hx.le]
      · simp [pinf_mul_fin, ninf_mul_fin]
      · simp [pinf_mul_fin, ninf_mul_fin, hx.ne', hx, not_lt.2 hx.le]
    | ninf =>
      rcases lt_trichotomy x 0 with hx | rfl | hx
      · simp [pinf_mul_fin, ninf_mul_fin, hx.ne, hx, not_lt.2 hx.le]
      · simp [pinf_mul_fin, ninf_mul_fin]
      · simp [pinf_mul_fin, ninf_mul_fin, hx.ne', hx, not_lt.2 hx.le]
    | fin q => simp [fin_mul_fin]
  have hr : ∀ x y : ℝ, 0 ≤ x → x ≤ y → ∀ b, dt (fin y) (fin dof) b ≤ dt (fin x) (fin dof) b := by
    intro x y hx hxy b
    rw [e, e]
    have h1 : fin 0 ≤ fin x / fin dof * fin x := by
      have := divmul_mono hd0 le_rfl hx
      rwa [show fin 0 / fin dof * fin 0 = fin 0 by simp [fin_div_fin, hd0.ne', fin_mul_fin]] at this
    refine exp_if_le (add_mono c (mul_anti_neg (by linarith) (log_mono ?_ (add_mono 1 (divmul_mono hd0 hx hxy))))) _
    exact le_trans' (by simp [fin_add_fin]) (add_mono 1 h1)
  refine unimodal_of_on ⟨fun x _ y _ hxy hy b => ?_, fun x _ y _ hx hxy b => hr x y hx hxy b⟩
    (C05_dt (outside_ninf _) dof hd) (C05_dt (outside_pinf _) dof hd) fun x => C06_dt _ _
  have := hr (-y) (-x) (by linarith) (by linarith) b
  rwa [hsym, hsym] at this
example [Ideal] : dt (fin 7) (fin 3) true ≤ dt (fin 4) (fin 3) true :=
  (C54_dt (by meets) ⟨2, by norm_num, by simp [ideal]; norm_num⟩
    ⟨_, by
      simp [dt_log_cons_term, ilog (show (0 : ℝ) < 3 by norm_num), ilgamma (show (0 : ℝ) < 3 / 2 by norm_num),
        ilgamma (show (0 : ℝ) < 3 / 2 + 2⁻¹ by norm_num), ideal]; rfl⟩).2 (fin 4) (fin 7) (by meets)
    (by meets) true

/-- Exponential density, real arguments: 0 below 0, falling after it. Missing: `+inf` in log form, where it is wrong
(`C54_dexp_violated`). -/
theorem C54_dexp_partial {rate : ℝ} (hr : 0 < rate) (hc : ∃ c, log (fin rate) = fin c) :
    UnimodalOn Set.univ 0 fun x => dexp x (fin rate) := by
  obtain ⟨c, hc⟩ := hc
  have h0 : ¬ rate < 0 := by linarith
  have e : ∀ x b, 0 ≤ x → dexp (fin x) (fin rate) b = exp_if (fin c - fin rate * fin x) (!b) := by
    intro x b hx
    simp [dexp, exp_ok', exp_ok, h0, not_lt.2 hx, dexp_log_compute, hc]
  have hf : ∀ x y : ℝ, 0 ≤ x → x ≤ y → ∀ b, dexp (fin y) (fin rate) b ≤ dexp (fin x) (fin rate) b := by
    intro x y hx hxy b
    rw [e x b hx, e y b (hx.trans hxy)]
    exact exp_if_le (const_sub_anti c (mul_mono hr (by simpa using hxy))) _
  refine ⟨fun x _ y _ hxy hy b => ?_, fun x _ y _ hx hxy b => hf x y hx hxy b⟩
  rcases hxy.eq_or_lt with rfl | hxy
  · rcases hy.eq_or_lt with rfl | hy
    · exact hf 0 0 le_rfl le_rfl b
    · cases b <;> simp [dexp, exp_ok', exp_ok, h0, hy, log_zero_if]
  · have hx := hxy.trans_le hy
    have h1 : ∀ b, dexp (fin y) (fin rate) b ≠ nan := by
      intro b
      rcases hy.eq_or_lt with rfl | hy
      · exact ne_nan_of_le_left (hf 0 0 le_rfl le_rfl b)
      · cases b <;> simp [dexp, exp_ok', exp_ok, h0, hy, log_zero_if]
    have h2 : dexp (fin x) (fin rate) = log_zero_if := by
      funext b; simp [dexp, exp_ok', exp_ok, h0, hx]
    cases b
    · have := nonneg_of_nn (C06_dexp (fin y) (fin rate)) (h1 false)
      simpa [h2, log_zero_if] using this
    · have := ninf_le (h1 true)
      simpa [h2, log_zero_if] using this
example [Ideal] : dexp (fin 7) (fin 3) true ≤ dexp (fin 4) (fin 3) true :=
  (C54_dexp_partial (by meets) ⟨_, ilog (by norm_num)⟩).2 4 trivial 7 trivial (by meets) (by meets) true

end mono

/-- In log form the exponential density is 0 at `+inf`, above its value at 1. -/
theorem C54_dexp_violated : ¬ Unimodal 0 fun x => dexp x (fin 1) := by
  intro h
  have h1 := h.2 (fin 1) pinf (by simp) (by simp) true
  simp [dexp, exp_ok', exp_ok, exp_if, dexp_log_compute, show fin 1 * fin 1 = fin 1 by simp [fin_mul_fin],
    fin_sub_fin, Lib.rnd_neg] at h1
  norm_num at h1
  exact absurd h1 (not_le.2 zero_lt_one)

theorem log_ne_nan {x : Fl} (h : fin 0 ≤ x) : log x ≠ nan := by
  cases x with
  | nan => simp at h
  | ninf => simp at h
  | pinf => simp
  | fin r =>
    have hr : 0 ≤ r := by simpa using h
    rw [log_fin, if_neg (not_lt.2 hr)]
    split_ifs
    · simp
    · exact ofE_ne_nan _

/-- Uniform density: flat between its ends, 0 outside; every point between the ends is a mode. -/
theorem C54_dunif {a b m : ℝ} (hab : a < b) (hm : m ∈ Set.Icc a b) : Unimodal m fun x => dunif x (fin a) (fin b) := by
  have e : ∀ x, a ≤ x → x ≤ b → dunif (fin x) (fin a) (fin b) = dunif_log_check (fin a) (fin b) := by
    intro x h1 h2
    funext l; simp [dunif, unif_ok', unif_ok, hab, h1, h2]
  have hz : ∀ x : Fl, x ≠ nan → x < fin a ∨ fin b < x → dunif x (fin a) (fin b) = log_zero_if := by
    intro x hx h
    funext l; simp_all [dunif, unif_ok', unif_ok]
  have h0 : fin 0 ≤ fin b - fin a := sub_nonneg_fl hab.le
  have hle : ∀ l, log_zero_if l ≤ dunif_log_check (fin a) (fin b) l ∧
      dunif_log_check (fin a) (fin b) l ≤ dunif_log_check (fin a) (fin b) l := by
    intro l
    cases l
    · have h2 : fin 0 ≤ fin 1 / (fin b - fin a) :=
        nonneg_of_nn (NN.div (nn_fin zero_le_one) (nn_le.1 h0).2)
          (ne_nan_of_le_left (one_div_anti0 h0 (le_refl' (ne_nan_of_le_right h0))))
      simpa [log_zero_if, dunif_log_check] using ⟨h2, le_refl' (ne_nan_of_le_right h2)⟩
    · have h2 : -log (fin b - fin a) ≠ nan := by
        have := log_ne_nan h0
        revert this
        cases log (fin b - fin a) <;> simp
      simpa [log_zero_if, dunif_log_check] using ⟨ninf_le h2, le_refl' h2⟩
  have hz2 : ∀ l, log_zero_if l ≤ log_zero_if l := by intro l; cases l <;> simp [log_zero_if]
  constructor
  · intro x y hxy hy l
    beta_reduce
    rcases Classical.em (y < fin a) with h1 | h1
    · rw [hz x (ne_nan_of_le_left hxy) (Or.inl (fl_lt_of_le_of_lt hxy h1)), hz y (ne_nan_of_le_right hxy) (Or.inl h1)]
      exact hz2 l
    · obtain ⟨s, rfl⟩ : ∃ s, y = fin s := by cases y <;> simp_all
      have h1 : a ≤ s := by simpa using h1
      have h2 : s ≤ m := by simpa using hy
      rw [e s h1 (h2.trans hm.2)]
      rcases Classical.em (x < fin a) with h3 | h3
      · rw [hz x (ne_nan_of_le_left hxy) (Or.inl h3)]; exact (hle l).1
      · obtain ⟨r, rfl⟩ : ∃ r, x = fin r := by cases x <;> simp_all
        rw [e r (by simpa using h3) ((show r ≤ s by simpa using hxy).trans (h2.trans hm.2))]
        exact (hle l).2
  · intro x y hx hxy l
    beta_reduce
    rcases Classical.em (fin b < x) with h1 | h1
    · rw [hz x (ne_nan_of_le_left hxy) (Or.inr h1), hz y (ne_nan_of_le_right hxy) (Or.inr (fl_lt_of_lt_of_le h1 hxy))]
      exact hz2 l
    · obtain ⟨r, rfl⟩ : ∃ r, x = fin r := by cases x <;> simp_all
      have h1 : r ≤ b := by simpa using h1
      have h2 : m ≤ r := by simpa using hx
      rw [e r (hm.1.trans h2) h1]
      rcases Classical.em (fin b < y) with h3 | h3
      · rw [hz y (ne_nan_of_le_right hxy) (Or.inr h3)]; exact (hle l).1
      · obtain ⟨s, rfl⟩ : ∃ s, y = fin s := by cases y <;> simp_all
        rw [e s (hm.1.trans (h2.trans (by simpa using hxy))) (by simpa using h3)]
        exact (hle l).2
example : dunif (fin 7) (fin 1) (fin 5) true ≤ dunif (fin 4) (fin 1) (fin 5) true :=
  (C54_dunif (m := 3) (by meets) (by constructor <;> norm_num)).2 (fin 4) (fin 7) (by meets) (by meets) true

end Stats

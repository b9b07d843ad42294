import Verif.Lemmas.Mono
import Verif.Lemmas.ProbIdeal
import Verif.Props.C07
import Verif.Props.C09
import Verif.Props.C11
import Verif.Props.C17
import Verif.Lemmas.ExactInst
import Verif.Double
import Verif.Lemmas.Meets

/-!
# C10: distribution functions are monotone

First part: every monotone rounding and every library with monotone functions (`MonoLib`). Second part: exact
arithmetic (`Ideal`, which is a `MonoLib`), for the functions that add or divide rounded terms and for the
hypotheses about single roundings in the first part.
`x ≤ y` on `Fl` is the C++ comparison, so it implies that neither side is NaN: the theorems also say that the
results are numbers.
-/

set_option linter.unusedSectionVars false
open Classical
namespace Stats
open Fl Spec

/-- The claim: in both forms, `x ≤ y` implies `p x ≤ p y`; infinities allowed. -/
def MonoCdf [Lib] (p : Fl → Bool → Fl) : Prop := ∀ x y : Fl, x ≤ y → ∀ b, p x b ≤ p y b

/-- The same for an integral argument. -/
def MonoCdfZ (p : ℤ → Bool → Fl) : Prop := ∀ x y : ℤ, x ≤ y → ∀ b, p x b ≤ p y b

section general
variable [Lib]

theorem PN.nonneg {x : Fl} (h : PN x) (hn : x ≠ nan) : fin 0 ≤ x := by
  rcases h with h | ⟨r, rfl, h0, _⟩
  · exact absurd h hn
  · simpa using h0
theorem PN.le_one {x : Fl} (h : PN x) (hn : x ≠ nan) : x ≤ fin 1 := by
  rcases h with h | ⟨r, rfl, _, h1⟩
  · exact absurd h hn
  · simpa using h1

theorem mono_of_fin {p : Fl → Bool → Fl} (hlog : MonotoneOn Lib.log (Set.Ioi 0)) (hE : EndsOK p)
    (hL : ∀ x, LogForm (p x)) (hP : ∀ x, PN (p x false))
    (hm : ∀ x y : ℝ, x ≤ y → p (fin x) false ≤ p (fin y) false) : MonoCdf p := by
  have plain : ∀ x y, x ≤ y → p x false ≤ p y false := by
    intro x y h
    cases x <;> cases y <;> simp at h
    · rw [hE.1]; simp
    · rw [hE.1]; exact (hP _).nonneg (ne_nan_of_le_left (hm _ _ le_rfl))
    · rw [hE.1, hE.2.2.1]; simp
    · exact hm _ _ h
    · rw [hE.2.2.1]; exact (hP _).le_one (ne_nan_of_le_left (hm _ _ le_rfl))
    · rw [hE.2.2.1]; simp
  intro x y h b
  cases b
  · exact plain x y h
  · rw [hL x, hL y]
    exact log_mono' hlog ((hP _).nonneg (ne_nan_of_le_left (plain x y h))) (plain x y h)

theorem monoZ_of {p : ℤ → Bool → Fl} (hlog : MonotoneOn Lib.log (Set.Ioi 0))
    (hL : ∀ x, LogForm (p x)) (hm : ∀ x y : ℤ, x ≤ y → p x false ≤ p y false)
    (h0 : ∀ x, fin 0 ≤ p x false) : MonoCdfZ p := by
  intro x y h b
  cases b
  · exact hm x y h
  · rw [hL x, hL y]
    exact log_mono' hlog (h0 x) (hm x y h)

end general

section mono
variable [Lib] [MonoLib]

theorem pnorm_compute_mono {x y : Fl} (h : x ≤ y) : pnorm_compute x ≤ pnorm_compute y := by
  unfold pnorm_compute
  rw [half_eq, one_eq]
  exact mul_mono (by norm_num) (add_mono 1 (erf_mono (div_mono Lib.sqrt2_pos h)))

theorem C10_pnorm (mu : ℝ) {sigma : ℝ} (hs : 0 ≤ sigma) : MonoCdf fun x => pnorm x (fin mu) (fin sigma) := by
  refine mono_of_fin MonoLib.log_mono (C11_pnorm mu sigma hs) (fun x => C07_pnorm x _ _)
    (fun x => (C09_pnorm x _ _).1) ?_
  intro x y h
  have h0 : ¬ sigma < 0 := by linarith
  rcases hs.eq_or_lt with rfl | hs
  · simp [pnorm, norm_ok', norm_ok, pnorm_limit_vals]
    split_ifs with h1 h2
    · simp
    · exact absurd (h1.trans h) h2
    · simp
    · simp
  · simp [pnorm, norm_ok', norm_ok, h0, hs.ne']
    exact pnorm_compute_mono (div_mono hs (sub_mono mu (by simpa using h)))
example : MonoCdf fun x => pnorm x (fin 3) (fin 2) := C10_pnorm (mu := 3) (sigma := 2) (hs := by meets)

theorem C10_plnorm (mu : ℝ) {sigma : ℝ} (hs : 0 ≤ sigma) : MonoCdf fun x => plnorm x (fin mu) (fin sigma) := by
  refine mono_of_fin MonoLib.log_mono (C11_plnorm mu sigma hs) (fun x => C07_plnorm x _ _)
    (fun x => (C09_plnorm x _ _).1) ?_
  intro x y h
  have he := Lib.eps_pos
  have h0 : ¬ sigma < 0 := by linarith
  have hok : ∀ z, lnorm_ok' (fin z) (fin mu) (fin sigma) := by
    intro z; simp [lnorm_ok', lnorm_ok, hs]
  simp only [plnorm, hok, not_true, if_false, eps, gt_iff_lt, fin_lt_fin]
  have key : ∀ a b : ℝ, Lib.eps ≤ a → a ≤ b →
      pnorm (log (fin a)) (fin mu) (fin sigma) false ≤ pnorm (log (fin b)) (fin mu) (fin sigma) false := by
    intro a b ha hab
    exact C10_pnorm mu hs _ _ (log_mono (by simpa using he.le.trans ha) (by simpa using hab)) false
  split_ifs with h1 h2 h3
  · simp
  · rw [log_zero_if_false]
    exact PN.nonneg (C09_pnorm _ _ _).1 (ne_nan_of_le_left (key y y (not_lt.1 h2) le_rfl))
  · exact absurd (lt_of_le_of_lt h h3) h1
  · exact key x y (not_lt.1 h1) h
example : MonoCdf fun x => plnorm x (fin 3) (fin 2) := C10_plnorm (mu := 3) (sigma := 2) (hs := by meets)

/-- Uniform, whenever the width `b - a` rounds to a positive number (no overflow). -/
theorem C10_punif {a b : ℝ} (h : a < b) {c : ℝ} (hc : 0 < c) (hw : fin b - fin a = fin c) :
    MonoCdf fun x => punif x (fin a) (fin b) := by
  refine mono_of_fin MonoLib.log_mono (C11_punif h) (fun x => C07_punif x _ _)
    (fun x => (C09_punif x _ _).1) ?_
  intro x y hxy
  have key : ∀ x y : ℝ, a ≤ x → x ≤ y → y ≤ b → (fin x - fin a) / fin c ≤ (fin y - fin a) / fin c :=
    fun x y _ hxy _ => div_mono hc (sub_mono a (by simpa using hxy))
  have hcc : fin c / fin c = fin 1 := by
    rw [fin_div_fin, if_neg hc.ne', div_self hc.ne']; simp
  have hba : ¬ b ≤ a := by linarith
  simp only [punif, unif_ok', unif_ok, punif_compute, hw]
  simp [-fin_le_fin]
  simp only [fin_le_fin, hba, if_false]
  have e0 : (fin a - fin a) / fin c = fin 0 := by
    rw [fin_sub_fin, sub_self, rnd_zero, ofE_zero, fin_div_fin, if_neg hc.ne']; simp
  split_ifs with h1 h2 h3 h4 h5 h6
  any_goals first | linarith | simp
  · rw [← e0]; exact key a y le_rfl (not_le.1 h2).le (not_le.1 h3).le
  · have := key x b (not_le.1 h1).le (by linarith) le_rfl
    rwa [hw, hcc] at this
  · exact key x y (not_le.1 h1).le hxy (by linarith)

/-- Exponential, positive rate. Missing: rate 0 at `x = +inf` (`C10_pexp_violated`). -/
theorem C10_pexp_partial {rate : ℝ} (hr : 0 < rate) : MonoCdf fun x => pexp x (fin rate) := by
  refine mono_of_fin MonoLib.log_mono (C11_pexp_partial hr) (fun x => C07_pexp x _)
    (fun x => (C09_pexp x _).1) ?_
  intro x y hxy
  have h0 : ¬ rate < 0 := by linarith
  have key : ∀ x y : ℝ, x ≤ y → -expm1 (-fin rate * fin x) ≤ -expm1 (-fin rate * fin y) := by
    intro x y h
    rw [neg_mul_fl, neg_mul_fl]
    exact neg_anti (expm1_mono (neg_anti (mul_mono hr (by simpa using h))))
  have hpn : ∀ z, PN (pexp (fin z) (fin rate) false) := fun z => (C09_pexp _ _).1
  simp only [pexp, exp_ok', exp_ok, pexp_compute] at hpn ⊢
  simp [h0, -fin_le_fin, -neg_fin] at hpn ⊢
  simp only [fin_le_fin] at hpn ⊢
  split_ifs with h1 h2 h3
  · simp
  · have := hpn y
    rw [if_neg h2] at this
    exact this.nonneg (ne_nan_of_le_left (key y y le_rfl))
  · linarith
  · exact key x y hxy
example : MonoCdf fun x => pexp x (fin 2) := C10_pexp_partial (rate := 2) (hr := by meets)

theorem C10_pexp_violated : ¬ ∀ rate : ℝ, 0 ≤ rate → MonoCdf fun x => pexp x (fin rate) := by
  intro h
  have := h 0 le_rfl pinf pinf (by simp) false
  simp [pexp, exp_ok', exp_ok, pexp_compute, fin_mul_pinf, expm1] at this

/-- Cauchy, positive scale. Missing: scale 0, where the value at `x = mu` is NaN (`C10_pcauchy_violated`). -/
theorem C10_pcauchy_partial (mu : ℝ) {sigma : ℝ} (hs : 0 < sigma) :
    MonoCdf fun x => pcauchy x (fin mu) (fin sigma) := by
  refine mono_of_fin MonoLib.log_mono (C11_pcauchy mu sigma hs.le) (fun x => C07_pcauchy x _ _)
    (fun x => (C09_pcauchy x _ _).1) ?_
  intro x y h
  have h0 : ¬ sigma < 0 := by linarith
  simp [pcauchy, cauchy_ok', cauchy_ok, h0, pcauchy_compute, -half_eq]
  rw [half_eq]
  exact add_mono _ (div_mono Lib.pi_pos (atan_mono (div_mono hs (sub_mono mu (by simpa using h)))))
example : MonoCdf fun x => pcauchy x (fin 3) (fin 2) := C10_pcauchy_partial (mu := 3) (sigma := 2) (hs := by meets)

theorem C10_pcauchy_violated :
    ¬ ∀ mu sigma : ℝ, 0 ≤ sigma → MonoCdf fun x => pcauchy x (fin mu) (fin sigma) := by
  intro h
  have := h 0 0 le_rfl (fin 0) (fin 0) (by simp) false
  simp [pcauchy, cauchy_ok', cauchy_ok, pcauchy_compute, fin_sub_fin, fin_div_fin, atan] at this

theorem sgn_eq_one {z : Fl} (h : sgn z = fin 1) : fin 0 < z := by
  cases z with
  | nan => simp at h
  | ninf => simp at h; norm_num at h
  | pinf => simp
  | fin r =>
    rw [sgn_fin] at h
    split_ifs at h with h1
    · simpa using h1
    · simp at h; norm_num at h
    · simp at h
theorem sgn_eq_neg_one {z : Fl} (h : sgn z = fin (-1)) : z < fin 0 := by
  cases z <;> simp_all [sgn_fin]
  all_goals first | (split_ifs at h <;> simp_all <;> norm_num at h) | (norm_num at h)
theorem sgn_eq_zero {z : Fl} (hn : z ≠ nan) (h : sgn z = fin 0) : z = fin 0 := by
  cases z <;> simp_all [sgn_fin]
  split_ifs at h <;> simp_all
  linarith
theorem lt_of_lt_of_le' {x y z : Fl} (h : x < y) (h' : y ≤ z) : x < z := by
  cases x <;> cases y <;> cases z <;> simp_all
  linarith
theorem lt_of_le_of_lt' {x y z : Fl} (h : x ≤ y) (h' : y < z) : x < z := by
  cases x <;> cases y <;> cases z <;> simp_all
  linarith
theorem lt_asymm' {x y : Fl} (h : x < y) (h' : y < x) : False := by
  cases x <;> cases y <;> simp_all
  linarith
theorem abs_mono {x y : Fl} (h0 : fin 0 < x) (h : x ≤ y) : abs x ≤ abs y := by
  cases x <;> cases y <;> simp_all
  rw [abs_of_pos h0, abs_of_pos (by linarith)]; exact h
theorem abs_anti {x y : Fl} (h0 : y < fin 0) (h : x ≤ y) : abs y ≤ abs x := by
  cases x <;> cases y <;> simp_all
  rw [abs_of_neg h0, abs_of_neg (by linarith)]; linarith

theorem plaplace_compute_mono {x y : Fl} {sigma : ℝ} (hs : 0 < sigma) (h : x ≤ y) :
    plaplace_compute x (fin sigma) ≤ plaplace_compute y (fin sigma) := by
  have hNN : NN (fin sigma) := nn_fin hs.le
  have h0 : ¬ fin sigma ==. 0 := by simpa using hs.ne'
  -- the three forms of the summand
  set E : Fl → Fl := fun z => 1 - exp (-abs z / fin sigma) with hE
  have hEm : ∀ a b : Fl, abs a ≤ abs b → E a ≤ E b := by
    intro a b hab
    simp only [hE, one_eq, neg_div_fl _ hNN h0]
    exact const_sub_anti 1 (exp_mono (neg_anti (div_mono hs hab)))
  have habs : ∀ a : Fl, a ≠ nan → abs a ≤ abs a := fun a ha => by cases a <;> simp_all
  have hEb : ∀ a : Fl, a ≠ nan → Btw 0 1 (E a) := by
    intro a ha
    apply Btw.one_sub
    rw [neg_div_fl _ hNN h0]
    apply btw_exp_nonpos
    have hnn : NN (abs a / fin sigma) := (nn_abs a).div hNN
    rcases neg_nn hnn with h1 | h1
    · have := div_mono hs (habs a ha)
      have := ne_nan_of_le_left this
      rw [nn_iff] at hnn
      rcases hnn with h | h | ⟨r, h, _⟩
      · exact absurd h this
      · rw [h] at h1; simp at h1
      · rw [h] at h1; simp at h1
    · exact h1
  have hm1 : half * fin 1 = half := by rw [half_eq, fin_mul_fin]; simp
  have hm2 : half * fin (-1) = -half := by
    rw [half_eq, fin_mul_fin]
    have : (1 / 2 : ℝ) * -1 = -(1 / 2) := by ring
    rw [this, Lib.rnd_neg, rnd_onehalf]; simp [ofE_neg]
  have hm3 : half * fin 0 = fin 0 := by rw [half_eq, fin_mul_fin]; simp
  have hz : ∀ a, a ≠ nan → fin 0 * E a = fin 0 := by
    intro a ha
    obtain ⟨r, hr, _, _⟩ := hEb a ha
    rw [hr, fin_mul_fin]; simp
  have hx := ne_nan_of_le_left h
  have hy := ne_nan_of_le_right h
  have hpos : ∀ a, a ≠ nan → fin 0 ≤ half * E a := by
    intro a ha
    obtain ⟨r, hr, h1, _⟩ := hEb a ha
    rw [hr, half_eq, fin_mul_fin]; simpa using rnd_nonneg (by linarith)
  have hneg : ∀ a, a ≠ nan → -half * E a ≤ fin 0 := by
    intro a ha
    rw [neg_mul_fl]
    simpa using neg_anti (hpos a ha)
  unfold plaplace_compute
  rw [half_eq, ← half_eq]
  conv_lhs => rw [half_eq, ← half_eq]
  apply add_mono
  show half * sgn x * E x ≤ half * sgn y * E y
  have hsx := sgn_cases x
  have hsy := sgn_cases y
  rcases hsx with h1 | h1 | h1 <;> rcases hsy with h2 | h2 | h2 <;>
    simp only [h1, h2, hm1, hm2, hm3]
  · rw [half_eq]
    exact mul_mono (by norm_num) (hEm _ _ (abs_mono (sgn_eq_one h1) h))
  · exact absurd (sgn_eq_neg_one h2) fun h3 => lt_asymm' h3 (lt_of_lt_of_le' (sgn_eq_one h1) h)
  · have h3 := lt_of_lt_of_le' (sgn_eq_one h1) h
    rw [sgn_eq_zero hy h2] at h3; simp at h3
  · exact le_trans' (hneg x hx) (hpos y hy)
  · rw [neg_mul_fl, neg_mul_fl, half_eq]
    exact neg_anti (mul_mono (by norm_num) (hEm _ _ (abs_anti (sgn_eq_neg_one h2) h)))
  · rw [hz y hy]; exact hneg x hx
  · rw [hz x hx]; exact hpos y hy
  · have h3 := lt_of_le_of_lt' h (sgn_eq_neg_one h2)
    rw [sgn_eq_zero hx h1] at h3; simp at h3
  · rw [hz x hx, hz y hy]; simp

theorem sgn_ofE (e : EReal) : sgn (ofE e) = if 0 < e then fin 1 else if e < 0 then fin (-1) else fin 0 := by
  induction e using EReal.rec with
  | bot => simp
  | top => simp
  | coe r => simp [sgn_fin]

theorem sgn_mono {x y : Fl} (h : x ≤ y) : sgn x ≤ sgn y := by
  obtain ⟨e, rfl⟩ := exists_ofE (ne_nan_of_le_left h)
  obtain ⟨f, rfl⟩ := exists_ofE (ne_nan_of_le_right h)
  have h : e ≤ f := by simpa using h
  rw [sgn_ofE, sgn_ofE]
  split_ifs with h1 h2 h3 h4 h5 h6 h7 <;> simp
  · exact absurd (h1.trans_le h) (not_lt.2 h3.le)
  · exact absurd (h1.trans_le h) h2
  · rename_i h8; exact absurd (lt_of_le_of_lt h h8) h4

theorem C10_plaplace (mu : ℝ) {sigma : ℝ} (hs : 0 ≤ sigma) :
    MonoCdf fun x => plaplace x (fin mu) (fin sigma) := by
  refine mono_of_fin MonoLib.log_mono (C11_plaplace mu sigma hs) (fun x => C07_plaplace x _ _)
    (fun x => (C09_plaplace x _ _).1) ?_
  intro x y h
  have h0 : ¬ sigma < 0 := by linarith
  have hsub : fin x - fin mu ≤ fin y - fin mu := sub_mono mu (by simpa using h)
  rcases hs.eq_or_lt with rfl | hs
  · simp [plaplace, laplace_ok', laplace_ok, plaplace_limit_vals, -half_eq]
    rw [half_eq]
    exact add_mono _ (mul_mono (by norm_num) (sgn_mono hsub))
  · simp [plaplace, laplace_ok', laplace_ok, h0, hs.ne']
    exact plaplace_compute_mono hs hsub
example : MonoCdf fun x => plaplace x (fin 3) (fin 2) := C10_plaplace (mu := 3) (sigma := 2) (hs := by meets)

/-- Logistic, whenever `2 * sigma` rounds to a positive number (no overflow). -/
theorem C10_plogis (mu : ℝ) {sigma : ℝ} (hs : 0 ≤ sigma)
    (hw : sigma ≠ 0 → ∃ c, 0 < c ∧ fin 2 * fin sigma = fin c) :
    MonoCdf fun x => plogis x (fin mu) (fin sigma) := by
  refine mono_of_fin MonoLib.log_mono (C11_plogis mu sigma hs) (fun x => C07_plogis x _ _)
    (fun x => (C09_plogis x _ _).1) ?_
  intro x y h
  have h0 : ¬ sigma < 0 := by linarith
  have hsub : fin x - fin mu ≤ fin y - fin mu := sub_mono mu (by simpa using h)
  rcases hs.eq_or_lt with rfl | hs
  · simp [plogis, logis_ok', logis_ok, plogis_limit_vals, -half_eq]
    rw [half_eq]
    exact add_mono _ (mul_mono (by norm_num) (sgn_mono hsub))
  · obtain ⟨c, hc, e⟩ := hw hs.ne'
    simp [plogis, logis_ok', logis_ok, h0, hs.ne', plogis_compute, e, -half_eq]
    rw [half_eq]
    exact mul_mono (by norm_num) (add_mono 1 (tanh_mono (div_mono hc hsub)))
example : MonoCdf fun x => plogis x (fin 3) (fin 0) :=
  C10_plogis (mu := 3) (sigma := 0) (hs := by meets) (hw := by meets)

theorem C10_pbeta {a b : ℝ} (ha : 0 ≤ a) (hb : 0 ≤ b) : MonoCdf fun x => pbeta x (fin a) (fin b) := by
  refine mono_of_fin MonoLib.log_mono (C11_pbeta a b ha hb) (fun x => C07_pbeta x _ _)
    (fun x => (C09_pbeta x _ _).1) ?_
  intro x y h
  have h0 : ¬ a < 0 := by linarith
  have h1 : ¬ b < 0 := by linarith
  have hpn : PN (pbeta (fin y) (fin a) (fin b) false) := (C09_pbeta _ _ _).1
  have hpn' : PN (pbeta (fin x) (fin a) (fin b) false) := (C09_pbeta _ _ _).1
  have key : ∀ x y : ℝ, 0 < x → x ≤ y → y < 1 →
      pbeta (fin x) (fin a) (fin b) false ≤ pbeta (fin y) (fin a) (fin b) false := by
    intro x y hx hxy hy
    have c1 : ¬ x ≤ 0 := by linarith
    have c2 : ¬ 1 ≤ x := by linarith
    have c3 : ¬ y ≤ 0 := by linarith
    have c4 : ¬ 1 ≤ y := by linarith
    by_cases hd : a = 0 ∨ b = 0
    · simp [pbeta, beta_ok', beta_ok, h0, h1, c1, c2, c3, c4, hd, pbeta_limit_vals]
      split_ifs <;> simp
      all_goals tauto
    · have hd' := not_or.1 hd
      simp [pbeta, beta_ok', beta_ok, h0, h1, c1, c2, c3, c4, hd'.1, hd'.2, pbeta_compute]
      exact ibeta_mono (lt_of_le_of_ne ha (Ne.symm hd'.1)) (lt_of_le_of_ne hb (Ne.symm hd'.2)) hx.le hxy hy.le
  have hle : ∀ z : ℝ, z ≤ 0 → pbeta (fin z) (fin a) (fin b) false = fin 0 := by
    intro z hz; simp [pbeta, beta_ok', beta_ok, h0, h1, hz]
  have hge : ∀ z : ℝ, 1 ≤ z → pbeta (fin z) (fin a) (fin b) false = fin 1 := by
    intro z hz
    have : ¬ z ≤ 0 := by linarith
    simp [pbeta, beta_ok', beta_ok, h0, h1, hz, this]
  have hnn : ∀ z, pbeta (fin z) (fin a) (fin b) false ≠ nan := by
    intro z
    rcases le_or_gt z 0 with h | h
    · rw [hle z h]; simp
    · rcases le_or_gt 1 z with h' | h'
      · rw [hge z h']; simp
      · exact ne_nan_of_le_left (key z z h le_rfl h')
  rcases le_or_gt x 0 with hx | hx
  · rw [hle x hx]; exact hpn.nonneg (hnn y)
  · rcases le_or_gt 1 y with hy | hy
    · rw [hge y hy]; exact hpn'.le_one (hnn x)
    · exact key x y hx h hy
example : MonoCdf fun x => pbeta x (fin 1) (fin 4) := C10_pbeta (a := 1) (b := 4) (ha := by meets) (hb := by meets)

/-- the incomplete gamma step shared by the gamma-like distributions, with finite parameters -/
theorem pgamma_mono {shape scale : ℝ} (hk : 0 ≤ shape) (hs : Lib.eps ≤ scale) {x y : Fl} (h : x ≤ y) :
    pgamma x (fin shape) (fin scale) false ≤ pgamma y (fin shape) (fin scale) false := by
  have he := Lib.eps_pos
  have hs0 : 0 < scale := he.trans_le hs
  refine (mono_of_fin MonoLib.log_mono (C11_pgamma shape scale hk hs) (fun x => C07_pgamma x _ _)
    (fun x => (C09_pgamma x _ _).1) ?_) x y h false
  clear h x y
  intro x y h
  have h0 : ¬ shape < 0 := by linarith
  have h1 : ¬ scale < Lib.eps := by linarith
  have key : ∀ x y : ℝ, Lib.eps ≤ x → x ≤ y →
      pgamma (fin x) (fin shape) (fin scale) false ≤ pgamma (fin y) (fin shape) (fin scale) false := by
    intro x y hx hxy
    have c1 : ¬ x < Lib.eps := by linarith
    have c2 : ¬ y < Lib.eps := by linarith
    rcases hk.eq_or_lt with rfl | hk
    · simp [pgamma, gamma_ok', gamma_ok, eps, h1, c1, c2, pgamma_limit_vals]
    · simp [pgamma, gamma_ok', gamma_ok, eps, h0, h1, c1, c2, hk.ne', pgamma_compute]
      refine igamma_mono hk ?_ (div_mono hs0 (by simpa using hxy))
      rw [fin_div_fin, if_neg hs0.ne']
      simpa using rnd_nonneg (div_nonneg (he.le.trans hx) hs0.le)
  have hlt : ∀ z : ℝ, z < Lib.eps → pgamma (fin z) (fin shape) (fin scale) false = fin 0 := by
    intro z hz; simp [pgamma, gamma_ok', gamma_ok, eps, h0, h1, hz]
  have hpn : PN (pgamma (fin y) (fin shape) (fin scale) false) := (C09_pgamma _ _ _).1
  rcases lt_or_ge x Lib.eps with hx | hx
  · rw [hlt x hx]
    rcases lt_or_ge y Lib.eps with hy | hy
    · rw [hlt y hy]; simp
    · exact hpn.nonneg (ne_nan_of_le_left (key y y hy le_rfl))
  · exact key x y hx h

theorem C10_pgamma {shape scale : ℝ} (hk : 0 ≤ shape) (hs : Lib.eps ≤ scale) :
    MonoCdf fun x => pgamma x (fin shape) (fin scale) :=
  mono_of_fin MonoLib.log_mono (C11_pgamma shape scale hk hs) (fun x => C07_pgamma x _ _)
    (fun x => (C09_pgamma x _ _).1) (fun x y h => pgamma_mono hk hs (by simpa using h))
example : MonoCdf fun x => pgamma x (fin 3) (fin 2) :=
  C10_pgamma (shape := 3) (scale := 2) (hk := by meets) (hs := by meets)

/-- Inverse gamma, whenever `1 / rate` rounds to a number that is at least `eps`. Missing: rates above
`1 / eps` (NaN, see `C11_pinvgamma_violated`) and rate 0 (NaN at `x = 0`). -/
theorem C10_pinvgamma_partial {shape rate : ℝ} (hk : 0 ≤ shape) (hr : 0 < rate) {c : ℝ}
    (hc : Lib.eps ≤ c) (hw : fin 1 / fin rate = fin c) (hr' : rate * Lib.eps ≤ 1) :
    MonoCdf fun x => pinvgamma x (fin shape) (fin rate) := by
  refine mono_of_fin MonoLib.log_mono (C11_pinvgamma_partial hk hr.le hr') (fun x => C07_pinvgamma x _ _)
    (fun x => (C09_pinvgamma x _ _).1) ?_
  intro x y h
  have h0 : ¬ shape < 0 := by linarith
  have h1 : ¬ rate < 0 := by linarith
  have hpn : PN (pinvgamma (fin y) (fin shape) (fin rate) false) := (C09_pinvgamma _ _ _).1
  have key : ∀ x y : ℝ, 0 ≤ x → x ≤ y →
      pinvgamma (fin x) (fin shape) (fin rate) false ≤ pinvgamma (fin y) (fin shape) (fin rate) false := by
    intro x y hx hxy
    have c1 : ¬ x < 0 := by linarith
    have c2 : ¬ y < 0 := by linarith
    simp [pinvgamma, invgamma_ok', invgamma_ok, h0, h1, c1, c2, hr.ne', pinvgamma_limit_vals,
      pinvgamma_compute, hw]
    refine const_sub_anti 1 (pgamma_mono hk hc ?_)
    split_ifs with h2 h3 h4
    · simp
    · exact absurd (le_antisymm (hxy.trans_eq h2) hx) h3
    · have hy : 0 < y := lt_of_le_of_ne (hx.trans hxy) (Ne.symm h2)
      rw [fin_div_fin, if_neg hy.ne']; simp
    · exact one_div_anti (lt_of_le_of_ne hx (Ne.symm h4)) hxy
  have hlt : ∀ z : ℝ, z < 0 → pinvgamma (fin z) (fin shape) (fin rate) false = fin 0 := by
    intro z hz; simp [pinvgamma, invgamma_ok', invgamma_ok, h0, h1, hz]
  rcases lt_or_ge x 0 with hx | hx
  · rw [hlt x hx]
    rcases lt_or_ge y 0 with hy | hy
    · rw [hlt y hy]; simp
    · exact hpn.nonneg (ne_nan_of_le_left (key y y hy le_rfl))
  · exact key x y hx h

/-- Chi-squared, whenever `dof / 2` rounds to a positive number. -/
theorem C10_pchisq {dof : ℝ} (hd : 0 ≤ dof) (hw : dof ≠ 0 → ∃ c, 0 < c ∧ fin dof / fin 2 = fin c) :
    MonoCdf fun x => pchisq x (fin dof) := by
  have he := Lib.eps_pos
  refine mono_of_fin MonoLib.log_mono (C11_pchisq dof hd) (fun x => C07_pchisq x _)
    (fun x => (C09_pchisq x _).1) ?_
  intro x y h
  have h0 : ¬ dof < 0 := by linarith
  have hpn : PN (pchisq (fin y) (fin dof) false) := (C09_pchisq _ _).1
  have key : ∀ x y : ℝ, Lib.eps ≤ x → x ≤ y → pchisq (fin x) (fin dof) false ≤ pchisq (fin y) (fin dof) false := by
    intro x y hx hxy
    have c1 : ¬ x < Lib.eps := by linarith
    have c2 : ¬ y < Lib.eps := by linarith
    rcases hd.eq_or_lt with rfl | hd
    · simp [pchisq, chisq_ok', chisq_ok, eps, c1, c2]
    · obtain ⟨c, hc, e⟩ := hw hd.ne'
      simp [pchisq, chisq_ok', chisq_ok, eps, h0, c1, c2, hd.ne', pchisq_compute, e]
      refine igamma_mono hc ?_ (div_mono two_pos (by simpa using hxy))
      rw [fin_div_fin, if_neg two_ne_zero]
      simpa using rnd_nonneg (div_nonneg (he.le.trans hx) zero_le_two)
  have hlt : ∀ z : ℝ, z < Lib.eps → pchisq (fin z) (fin dof) false = fin 0 := by
    intro z hz; simp [pchisq, chisq_ok', chisq_ok, eps, h0, hz]
  rcases lt_or_ge x Lib.eps with hx | hx
  · rw [hlt x hx]
    rcases lt_or_ge y Lib.eps with hy | hy
    · rw [hlt y hy]; simp
    · exact hpn.nonneg (ne_nan_of_le_left (key y y hy le_rfl))
  · exact key x y hx h
example : MonoCdf fun x => pchisq x (fin 0) := C10_pchisq (dof := 0) (hd := by meets) (hw := by meets)

theorem C10_pweibull {shape scale : ℝ} (hk : Lib.eps ≤ shape) (hs : Lib.eps ≤ scale) :
    MonoCdf fun x => pweibull x (fin shape) (fin scale) := by
  have he := Lib.eps_pos
  refine mono_of_fin MonoLib.log_mono (C11_pweibull shape scale hk hs) (fun x => C07_pweibull x _ _)
    (fun x => (C09_pweibull x _ _).1) ?_
  intro x y h
  have hk0 : 0 < shape := he.trans_le hk
  have hs0 : 0 < scale := he.trans_le hs
  have h0 : ¬ shape < Lib.eps := by linarith
  have h1 : ¬ scale < Lib.eps := by linarith
  have hpn : PN (pweibull (fin y) (fin shape) (fin scale) false) := (C09_pweibull _ _ _).1
  have key : ∀ x y : ℝ, Lib.eps ≤ x → x ≤ y →
      pweibull (fin x) (fin shape) (fin scale) false ≤ pweibull (fin y) (fin shape) (fin scale) false := by
    intro x y hx hxy
    have c1 : ¬ x < Lib.eps := by linarith
    have c2 : ¬ y < Lib.eps := by linarith
    simp [pweibull, weibull_ok', weibull_ok, eps, h0, h1, c1, c2, pweibull_compute]
    refine neg_anti (expm1_mono (neg_anti (pow_mono hk0 ?_ (div_mono hs0 (by simpa using hxy)))))
    rw [fin_div_fin, if_neg hs0.ne']
    simpa using rnd_nonneg (div_nonneg (he.le.trans hx) hs0.le)
  have hlt : ∀ z : ℝ, z < Lib.eps → pweibull (fin z) (fin shape) (fin scale) false = fin 0 := by
    intro z hz; simp [pweibull, weibull_ok', weibull_ok, eps, h0, h1, hz]
  rcases lt_or_ge x Lib.eps with hx | hx
  · rw [hlt x hx]
    rcases lt_or_ge y Lib.eps with hy | hy
    · rw [hlt y hy]; simp
    · exact hpn.nonneg (ne_nan_of_le_left (key y y hy le_rfl))
  · exact key x y hx h
example : MonoCdf fun x => pweibull x (fin 3) (fin 2) :=
  C10_pweibull (shape := 3) (scale := 2) (hk := by meets) (hs := by meets)

theorem C10_pbern {p : ℝ} (h0 : 0 ≤ p) (h1 : p ≤ 1) : MonoCdfZ fun k => pbern k (fin p) := by
  have e0 : ¬ p < 0 := by linarith
  have e1 : ¬ 1 < p := by linarith
  have hb : Btw 0 1 (1 - fin p) := (btw_fin h0 h1).one_sub
  obtain ⟨r, hr, hr0, hr1⟩ := hb
  have hf : ∀ k, pbern k (fin p) false = fin (if k < 0 then 0 else if 1 ≤ k then 1 else r) := by
    intro k
    simp only [pbern, bern_ok, pbern_compute, hr]
    split_ifs <;> simp_all
  refine monoZ_of MonoLib.log_mono (fun x => C07_pbern x _) ?_ ?_
  · intro x y h
    rw [hf, hf]
    simp only [fin_le_fin]
    split_ifs <;> first | omega | linarith
  · intro x
    rw [hf]; simp only [fin_le_fin]
    split_ifs <;> linarith
example : MonoCdfZ fun k => pbern k (fin (1 / 3)) := C10_pbern (p := 1 / 3) (h0 := by meets) (h1 := by meets)

theorem C10_pradem {p : ℝ} (h0 : 0 ≤ p) (h1 : p ≤ 1) : MonoCdfZ fun k => pradem k (fin p) := by
  have e0 : ¬ p < 0 := by linarith
  have e1 : ¬ 1 < p := by linarith
  have hb : Btw 0 1 (1 - fin p) := (btw_fin h0 h1).one_sub
  obtain ⟨r, hr, hr0, hr1⟩ := hb
  have hf : ∀ k, pradem k (fin p) false = fin (if k < -1 then 0 else if 1 ≤ k then 1 else r) := by
    intro k
    simp only [pradem, radem_ok, pradem_compute, hr]
    split_ifs <;> simp_all
  refine monoZ_of MonoLib.log_mono (fun x => C07_pradem x _) ?_ ?_
  · intro x y h
    rw [hf, hf]
    simp only [fin_le_fin]
    split_ifs <;> first | omega | linarith
  · intro x
    rw [hf]; simp only [fin_le_fin]
    split_ifs <;> linarith
example : MonoCdfZ fun k => pradem k (fin (1 / 3)) := C10_pradem (p := 1 / 3) (h0 := by meets) (h1 := by meets)

end mono

section exact
variable [Lib] [Ideal]

/-- Exact arithmetic is monotone. -/
theorem Ideal.monoLib : MonoLib where
  exp_mono := fun x y h => by rw [Ideal.exp, Ideal.exp]; exact_mod_cast Real.exp_le_exp.2 h
  log_mono := fun x hx y hy h => by
    rw [Ideal.log x hx, Ideal.log y hy]; exact_mod_cast Real.log_le_log hx h
  expm1_mono := fun x y h => by
    rw [Ideal.expm1, Ideal.expm1]; exact_mod_cast (by linarith [Real.exp_le_exp.2 h])
  log1p_mono := fun x hx y hy h => by
    have hx : -1 < x := hx
    rw [Ideal.log1p x hx, Ideal.log1p y hy]
    exact_mod_cast Real.log_le_log (by linarith) (by linarith)
  sqrt_mono := fun x hx y hy h => by
    rw [Ideal.sqrt x hx, Ideal.sqrt y hy]; exact_mod_cast Real.sqrt_le_sqrt h
  atan_mono := fun x y h => by rw [Ideal.atan, Ideal.atan]; exact_mod_cast Real.arctan_mono h
  tanh_mono := fun x y h => by rw [Ideal.tanh, Ideal.tanh]; exact_mod_cast monotone_tanh h
  erf_mono := fun x y h => by rw [Ideal.erf, Ideal.erf]; exact_mod_cast strictMono_erf.monotone h
  pow_mono := fun c hc x hx y hy h => by
    show Lib.pow x c ≤ Lib.pow y c
    rw [Ideal.pow x c hx, Ideal.pow y c hy]; exact_mod_cast Real.rpow_le_rpow (le_of_lt hx) h hc
  igamma_mono := fun a ha x hx y hy h => by
    rw [Ideal.igamma a x ha hx, Ideal.igamma a y ha hy]
    exact_mod_cast (strictMonoOn_gammaP ha).monotoneOn hx hy h
  ibeta_mono := fun a b ha hb x hx y hy h => by
    rw [Ideal.ibeta a b x ha hb hx.1 hx.2, Ideal.ibeta a b y ha hb hy.1 hy.2]
    exact_mod_cast (strictMonoOn_betaI ha hb).monotoneOn hx hy h

theorem ideal_log_mono : MonotoneOn Lib.log (Set.Ioi 0) := Ideal.monoLib.log_mono

theorem C10_punif_exact {a b : ℝ} (h : a < b) : MonoCdf fun x => punif x (fin a) (fin b) :=
  haveI := Ideal.monoLib
  C10_punif h (sub_pos.2 h) (ifin_sub _ _)
example : MonoCdf fun x => punif x (fin 1) (fin 4) := C10_punif_exact (a := 1) (b := 4) (h := by meets)

theorem C10_plogis_exact (mu : ℝ) {sigma : ℝ} (hs : 0 ≤ sigma) : MonoCdf fun x => plogis x (fin mu) (fin sigma) :=
  haveI := Ideal.monoLib
  C10_plogis mu hs fun h => ⟨2 * sigma, by have := lt_of_le_of_ne hs (Ne.symm h); positivity, ifin_mul _ _⟩
example : MonoCdf fun x => plogis x (fin 3) (fin 2) := C10_plogis_exact (mu := 3) (sigma := 2) (hs := by meets)

theorem C10_pinvgamma_exact_partial {shape rate : ℝ} (hk : 0 ≤ shape) (hr : 0 < rate) (hr' : rate * Lib.eps ≤ 1) :
    MonoCdf fun x => pinvgamma x (fin shape) (fin rate) :=
  haveI := Ideal.monoLib
  C10_pinvgamma_partial hk hr (by rw [le_div_iff₀ hr]; linarith) (ifin_div 1 hr.ne') hr'
example : MonoCdf fun x => pinvgamma x (fin 3) (fin 2) :=
  C10_pinvgamma_exact_partial (shape := 3) (rate := 2) (hk := by meets) (hr := by meets) (hr' := by meets)

/-- Rates above `1 / eps` are valid but give NaN. -/
theorem C10_pinvgamma_violated :
    ¬ ∀ shape rate : ℝ, 0 ≤ shape → 0 < rate → MonoCdf fun x => pinvgamma x (fin shape) (fin rate) := by
  intro h
  have he := Lib.eps_pos
  have hp : 0 < 2 / Lib.eps := by positivity
  have := h 1 (2 / Lib.eps) zero_le_one hp (fin 1) (fin 1) (by simp) false
  have e1 : (1 : ℝ) / (2 / Lib.eps) = Lib.eps / 2 := by field_simp
  have e2 : Lib.eps / 2 < Lib.eps := by linarith
  have e3 : ¬ 2 / Lib.eps < 0 := by linarith
  simp [pinvgamma, invgamma_ok', invgamma_ok, pinvgamma_limit_vals, pinvgamma_compute, pgamma, gamma_ok',
    gamma_ok, ifin_div _ hp.ne', e1, e2, e3, eps, he.ne', -div_lt_self_iff] at this
  norm_num at this

theorem C10_pchisq_exact {dof : ℝ} (hd : 0 ≤ dof) : MonoCdf fun x => pchisq x (fin dof) :=
  haveI := Ideal.monoLib
  C10_pchisq hd fun h => ⟨dof / 2, half_pos (lt_of_le_of_ne hd (Ne.symm h)), ifin_div_two _⟩
example : MonoCdf fun x => pchisq x (fin 4) := C10_pchisq_exact (dof := 4) (hd := by meets)

theorem mono_of_cdf {p : Fl → Bool → Fl} (hE : EndsOK p) (hN : p nan false = nan) (hL : ∀ x, LogForm (p x))
    {F f : ℝ → ℝ} (hF : IsCdf F f) (hp : ∀ x : ℝ, p (fin x) false = fin (F x)) : MonoCdf p := by
  refine mono_of_fin ideal_log_mono hE hL ?_ ?_
  · intro x
    cases x with
    | fin r => rw [hp]; exact Or.inr (btw_fin (hF.nonneg' r) (hF.le_one r))
    | ninf => rw [hE.1]; simp
    | pinf => rw [hE.2.2.1]; simp
    | nan => rw [hN]; simp
  · intro x y h
    rw [hp, hp]; simpa using hF.mono h

theorem C10_pt {dof : ℝ} (h : Lib.eps ≤ dof) : MonoCdf fun x => pt x (fin dof) :=
  mono_of_cdf (C11_pt dof h) (by simp [pt, t_ok']) (fun x => C07_pt x _) (isCdf_t (Lib.eps_pos.trans_le h))
    (fun x => pt_fin h x)
example : MonoCdf fun x => pt x (fin 4) := C10_pt (dof := 4) (h := by meets)

/-- F distribution; the code replaces `x < eps` by 0. -/
theorem C10_pf {df1 df2 : ℝ} (h1 : Lib.eps ≤ df1) (h2 : Lib.eps ≤ df2) :
    MonoCdf fun x => pf x (fin df1) (fin df2) := by
  have he := Lib.eps_pos
  have hF := isCdf_f (he.trans_le h1) (he.trans_le h2)
  refine mono_of_fin ideal_log_mono (C11_pf df1 df2 h1 h2)
    (fun x => C07_pf_partial x _ _ (Or.inl (by simp))) (fun x => C09_pf_plain x _ _) ?_
  intro x y h
  rcases lt_or_ge x Lib.eps with hx | hx
  · have e : pf (fin x) (fin df1) (fin df2) false = fin 0 := by
      simp [pf, f_ok', f_ok, eps, hx, not_lt.2 h1, not_lt.2 h2]
    rw [e]
    rcases lt_or_ge y Lib.eps with hy | hy
    · simp [pf, f_ok', f_ok, eps, hy, not_lt.2 h1, not_lt.2 h2]
    · rw [pf_fin h1 h2 y (Or.inl hy)]; simpa using hF.nonneg' y
  · rw [pf_fin h1 h2 y (Or.inl (hx.trans h)), pf_fin h1 h2 x (Or.inl hx)]
    simpa using hF.mono h
example : MonoCdf fun x => pf x (fin 3) (fin 5) := C10_pf (df1 := 3) (df2 := 5) (h1 := by meets) (h2 := by meets)

/-- Inverse Gaussian, positive parameters. -/
theorem C10_pinvgauss {mu lambda : ℝ} (hm : 0 < mu) (hl : 0 < lambda) :
    MonoCdf fun x => pinvgauss x (fin mu) (fin lambda) :=
  mono_of_cdf (C11_pinvgauss mu lambda hm.le hl.le) (by simp [pinvgauss, invgauss_ok'])
    (fun x => C07_pinvgauss x _ _) (isCdf_invgauss hm hl) (fun x => pinvgauss_fin hm hl x)
example : MonoCdf fun x => pinvgauss x (fin 3) (fin 2) :=
  C10_pinvgauss (mu := 3) (lambda := 2) (hm := by meets) (hl := by meets)

/-- Inverse Gaussian with a zero parameter: the unit step at 0. -/
theorem C10_pinvgauss_degenerate {mu lambda : ℝ} (hm : 0 ≤ mu) (hl : 0 ≤ lambda) (h0 : mu = 0 ∨ lambda = 0) :
    MonoCdf fun x => pinvgauss x (fin mu) (fin lambda) := by
  have e1 : ¬ mu < 0 := by linarith
  have e2 : ¬ lambda < 0 := by linarith
  have key : ∀ x : ℝ, pinvgauss (fin x) (fin mu) (fin lambda) false = fin (if x < 0 then 0 else 1) := by
    intro x
    simp only [pinvgauss, invgauss_ok', invgauss_ok, pinvgauss_limit_vals]
    rcases h0 with rfl | rfl
    · simp [e2]; split_ifs <;> simp_all
    · simp [e1]; split_ifs <;> simp_all
  refine mono_of_fin ideal_log_mono (C11_pinvgauss mu lambda hm hl) (fun x => C07_pinvgauss x _ _) ?_ ?_
  · intro x
    cases x with
    | fin r => rw [key]; split_ifs <;> simp
    | ninf =>
      have h : pinvgauss ninf (fin mu) (fin lambda) false = _ := (C11_pinvgauss mu lambda hm hl).1
      rw [h]; simp
    | pinf =>
      have h : pinvgauss pinf (fin mu) (fin lambda) false = _ := (C11_pinvgauss mu lambda hm hl).2.2.1
      rw [h]; simp
    | nan => simp [pinvgauss, invgauss_ok']
  · intro x y h
    rw [key, key]; simp only [fin_le_fin]
    split_ifs <;> linarith
example : MonoCdf fun x => pinvgauss x (fin 3) (fin 0) :=
  C10_pinvgauss_degenerate (mu := 3) (lambda := 0) (hm := by meets) (hl := by meets) (h0 := by meets)

theorem C10_pbinom (n : ℕ) {p : ℝ} (h0 : 0 ≤ p) (h1 : p ≤ 1) : MonoCdfZ fun k => pbinom k n (fin p) := by
  refine monoZ_of ideal_log_mono (fun x => C07_pbinom x _ _) ?_ ?_
  · intro x y h
    rw [pbinom_fin n h0 h1, pbinom_fin n h0 h1]
    simpa using cumZ_mono (binomPmf_nonneg h0 h1) h
  · intro x
    rw [pbinom_fin n h0 h1]; simpa using cumZ_nonneg (binomPmf_nonneg h0 h1) x
example : MonoCdfZ fun k => pbinom k 5 (fin (1 / 3)) :=
  C10_pbinom (n := 5) (p := 1 / 3) (h0 := by meets) (h1 := by meets)

theorem C10_ppois {rate : ℝ} (h0 : 0 ≤ rate) : MonoCdfZ fun k => ppois k (fin rate) := by
  refine monoZ_of ideal_log_mono (fun x => C07_ppois x _) ?_ ?_
  · intro x y h
    rw [ppois_fin h0, ppois_fin h0]
    simpa using cumZ_mono (poisPmf_nonneg h0) h
  · intro x
    rw [ppois_fin h0]; simpa using cumZ_nonneg (poisPmf_nonneg h0) x
example : MonoCdfZ fun k => ppois k (fin 2) := C10_ppois (rate := 2) (h0 := by meets)

end exact
end Stats

namespace Stats.ExamplesC10
open Fl Spec
open scoped Stats.Exact

example : plaplace (fin (-1)) (fin 0) (fin 2) true ≤ plaplace (fin 3) (fin 0) (fin 2) true :=
  haveI := Ideal.monoLib
  C10_plaplace 0 (by norm_num) _ _ (by simp; norm_num) true
example : pinvgauss (fin 1) (fin 2) (fin 3) false ≤ pinvgauss pinf (fin 2) (fin 3) false :=
  C10_pinvgauss (by norm_num) (by norm_num) _ _ (by simp) false
example : pbinom 3 10 (fin (1 / 4)) false ≤ pbinom 4 10 (fin (1 / 4)) false :=
  C10_pbinom 10 (by norm_num) (by norm_num) 3 4 (by norm_num) false

end Stats.ExamplesC10

/-! The rounded theorems at work in IEEE binary64: width of the interval and `2 * sigma` are exact here. -/
namespace Stats.ExamplesC10.Double
open Fl Spec

set_option warn.classDefReducibility false in
attribute [local instance] doubleLib
example : @MonoCdf doubleLib (@pnorm doubleLib · (fin 1) (fin 2)) :=
  haveI := doubleLib_mono
  C10_pnorm 1 (by norm_num)
example : @MonoCdf doubleLib (@punif doubleLib · (fin 1) (fin 3)) :=
  haveI := doubleLib_mono
  C10_punif (c := 2) (by norm_num) two_pos (by
    rw [fin_sub_fin, show (3 : ℝ) - 1 = 2 by norm_num, rnd_two]; simp)

end Stats.ExamplesC10.Double

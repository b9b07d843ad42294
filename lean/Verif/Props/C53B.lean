import Verif.Props.C53
import Verif.Props.C14
import Verif.Props.C16D
import Verif.Props.C41
import Verif.Lemmas.Moment
import Verif.Lemmas.Meets

/-!
# C53, exact arithmetic: the remaining distribution functions, and the quantiles
-/

set_option linter.unusedSectionVars false
open Classical
namespace Stats
open Fl Spec

section exact
variable [Lib] [Ideal]

/-! The logistic theorems of the first part ask that doubling the scale gives a positive number. -/

example : plogis (fin 1) (fin 3) (fin 2) true ≤ plogis (fin 1) (fin 0) (fin 2) true := by
  have := Ideal.monoLib
  have h : fin 2 * fin 2 = fin 4 := by simp only [ideal]; norm_num
  exact C53_plogis_mu (by meets) (fun _ => ⟨4, by norm_num, h⟩) 0 trivial 3 trivial (by meets) (fin 1) (by simp) true
example : plogis (fin 1) (fin 3) (fin 2) true ≤ plogis (fin 1) (fin 3) (fin 5) true := by
  have := Ideal.monoLib
  have h : fin 2 * fin 2 = fin 4 := by simp only [ideal]; norm_num
  have h' : fin 2 * fin 5 = fin 10 := by simp only [ideal]; norm_num
  exact (C53_plogis_sigma 3 2 ⟨by norm_num, 4, by norm_num, h⟩ 5 ⟨by norm_num, 10, by norm_num, h'⟩ (by meets)).2 (fin 1)
    (by meets) true

theorem reg_of_value {F : Fl → Bool → Fl} (hE : EndsOK F) (hL : ∀ x, LogForm (F x))
    (h : ∀ x : ℝ, ∃ r : ℝ, F (fin x) false = fin r ∧ 0 ≤ r ∧ r ≤ 1) : RegCdf F :=
  ⟨hE, hL, fun x => by
    obtain ⟨r, hr, h0, h1⟩ := h x
    rw [hr]; exact Or.inr (btw_fin h0 h1)⟩

theorem noCut_or (x : ℝ) : (Lib.eps ≤ x ∨ x ≤ 0) ∨ x < Lib.eps := by
  rcases lt_or_ge x Lib.eps with h | h
  · exact Or.inr h
  · exact Or.inl (Or.inl h)

/-! ### Scale of the lognormal, ends of the uniform -/

theorem Phi_scale {z s t : ℝ} (hs : 0 < s) (hst : s ≤ t) :
    (0 ≤ z → Phi (z / t) ≤ Phi (z / s)) ∧ (z ≤ 0 → Phi (z / s) ≤ Phi (z / t)) := by
  have ht := hs.trans_le hst
  have hm : Monotone Phi := by
    have := (isCdf_norm 0 one_pos).mono
    simpa using this
  constructor <;> intro h <;> apply hm
  · exact div_le_div_of_nonneg_left h hs hst
  · rw [div_le_div_iff₀ hs ht]; nlinarith

theorem lnorm_log {x mu : ℝ} (hx : 0 < x) : (Real.exp mu ≤ x → 0 ≤ Real.log x - mu) ∧ (x ≤ Real.exp mu → Real.log x - mu ≤ 0) := by
  constructor <;> intro h
  · have := Real.log_le_log (Real.exp_pos mu) h
    rw [Real.log_exp] at this; linarith
  · have := Real.log_le_log hx h
    rw [Real.log_exp] at this; linarith

/-- The log-normal distribution spreads about its median. -/
theorem C53_plnorm_sigma (mu : ℝ) :
    SpreadsWith (Set.Ioi 0) (Real.exp mu) fun sigma x => plnorm x (fin mu) (fin sigma) := by
  have := Ideal.monoLib
  intro s hs t ht hst
  have hs : 0 < s := hs
  have ht : 0 < t := ht
  have cut : ∀ {c x : ℝ}, 0 < c → x < Lib.eps → plnorm (fin x) (fin mu) (fin c) false = fin 0 := by
    intro c x hc hx
    simp [plnorm, lnorm_ok', lnorm_ok, eps, hx, not_lt.2 hc.le]
  refine wider_of MonoLib.log_mono (reg_plnorm mu ht.le) (reg_plnorm mu hs.le) ?_ ?_ <;> intro x hx <;> beta_reduce
  · rcases noCut_or x with h | h
    · rw [plnorm_fin mu hs x h, plnorm_fin mu ht x h, fin_le_fin]
      split_ifs with h0
      · exact (Phi_scale hs hst).1 ((lnorm_log h0).1 hx)
      · exact le_rfl
    · rw [cut hs h, cut ht h]; simp
  · rcases noCut_or x with h | h
    · rw [plnorm_fin mu hs x h, plnorm_fin mu ht x h, fin_le_fin]
      split_ifs with h0
      · exact (Phi_scale hs hst).2 ((lnorm_log h0).2 hx)
      · exact le_rfl
    · rw [cut hs h, cut ht h]; simp
example : plnorm (fin 1) (fin 3) (fin 2) false ≤ plnorm (fin 1) (fin 3) (fin 5) false :=
  (C53_plnorm_sigma 3 2 (by meets) 5 (by meets) (by meets)).2 (fin 1) (by meets) false

theorem reg_punif {a b : ℝ} (h : a < b) : RegCdf fun x => punif x (fin a) (fin b) :=
  ⟨C11_punif h, fun x => C07_punif x _ _, fun _ => (C09_punif _ _ _).1⟩

theorem unifCdf_ends {a b c d : ℝ} (hab : a < b) (hcd : c < d) (hac : a ≤ c) (hbd : b ≤ d) (x : ℝ) :
    unifCdf c d x ≤ unifCdf a b x := by
  have h1 : 0 < b - a := by linarith
  have h2 : 0 < d - c := by linarith
  simp only [unifCdf]
  split_ifs with e1 e2 e3 e4 e5 e6 <;> try linarith
  · exact div_nonneg (by linarith) h1.le
  · rw [div_le_one h2]; linarith
  · rw [div_le_div_iff₀ h2 h1]
    nlinarith [mul_nonneg (sub_nonneg.2 hac) (show 0 ≤ b - x by linarith),
      mul_nonneg (sub_nonneg.2 hbd) (show 0 ≤ x - a by linarith)]

theorem C53_punif_a (b : ℝ) : FallsWith (Set.Iio b) fun a x => punif x (fin a) (fin b) := by
  intro s hs t ht hst
  refine below_of ideal_log_mono (reg_punif ht) (reg_punif hs) fun x => ?_
  beta_reduce
  rw [punif_fin hs, punif_fin ht, fin_le_fin]
  exact unifCdf_ends hs ht hst le_rfl x
example : punif (fin 3) (fin 2) (fin 5) false ≤ punif (fin 3) (fin 0) (fin 5) false :=
  C53_punif_a 5 0 (by meets) 2 (by meets) (by meets) (fin 3) (by simp) false

theorem C53_punif_b (a : ℝ) : FallsWith (Set.Ioi a) fun b x => punif x (fin a) (fin b) := by
  intro s hs t ht hst
  refine below_of ideal_log_mono (reg_punif ht) (reg_punif hs) fun x => ?_
  beta_reduce
  rw [punif_fin hs, punif_fin ht, fin_le_fin]
  exact unifCdf_ends hs ht le_rfl hst x
example : punif (fin 3) (fin 2) (fin 8) false ≤ punif (fin 3) (fin 2) (fin 5) false :=
  C53_punif_b 2 5 (by meets) 8 (by meets) (by meets) (fin 3) (by simp) false

/-! ### Shape parameters -/

/-- Shape 0, the point mass at 0, is included. -/
theorem C53_pgamma_shape {scale : ℝ} (hθ : Lib.eps ≤ scale) :
    FallsWith (Set.Ici 0) fun shape x => pgamma x (fin shape) (fin scale) := by
  have := Ideal.monoLib
  intro s hs t ht hst
  have hs : 0 ≤ s := hs
  have ht : 0 ≤ t := ht
  have he := Lib.eps_pos
  have hθ0 := he.trans_le hθ
  refine below_of MonoLib.log_mono (reg_pgamma ht hθ) (reg_pgamma hs hθ) fun x => ?_
  beta_reduce
  rcases lt_or_ge x Lib.eps with hx | hx
  · simp [pgamma, gamma_ok', gamma_ok, eps, hx, not_lt.2 hs, not_lt.2 ht, not_lt.2 hθ]
  · have hx0 := he.trans_le hx
    rcases hs.eq_or_lt with rfl | hs
    · have e : pgamma (fin x) (fin 0) (fin scale) false = fin 1 := by
        simp [pgamma, gamma_ok', gamma_ok, eps, not_lt.2 hx, not_lt.2 hθ, pgamma_limit_vals]
      rw [e]
      rcases ht.eq_or_lt with rfl | ht
      · rw [e]; simp
      · rw [pgamma_fin ht hθ x (Or.inl hx), if_pos hx0, fin_le_fin]
        have := (isCdf_gamma ht hθ0).le_one x
        simpa [hx0] using this
    · rw [pgamma_fin hs hθ x (Or.inl hx), pgamma_fin (hs.trans_le hst) hθ x (Or.inl hx), if_pos hx0, if_pos hx0,
        fin_le_fin]
      exact Ord.gammaP_anti hs hst (by positivity)
example : pgamma (fin 1) (fin 3) (fin 5) false ≤ pgamma (fin 1) (fin 2) (fin 5) false :=
  C53_pgamma_shape (by meets) 2 (by meets) 3 (by meets) (by meets) (fin 1) (by simp) false

theorem C53_pchisq : FallsWith (Set.Ici 0) fun dof x => pchisq x (fin dof) := by
  intro s hs t ht hst
  have hs : 0 ≤ s := hs
  have ht : 0 ≤ t := ht
  have he := Lib.eps_pos
  have reg : ∀ {d : ℝ}, 0 ≤ d → RegCdf fun x => pchisq x (fin d) := fun {d} hd =>
    ⟨C11_pchisq d hd, fun x => C07_pchisq x _, fun _ => (C09_pchisq _ _).1⟩
  refine below_of ideal_log_mono (reg ht) (reg hs) fun x => ?_
  beta_reduce
  rcases lt_or_ge x Lib.eps with hx | hx
  · simp [pchisq, chisq_ok', chisq_ok, eps, hx, not_lt.2 hs, not_lt.2 ht]
  · have hx0 := he.trans_le hx
    rcases hs.eq_or_lt with rfl | hs
    · have e : pchisq (fin x) (fin 0) false = fin 1 := by
        simp [pchisq, chisq_ok', chisq_ok, eps, not_lt.2 hx]
      rw [e]
      rcases ht.eq_or_lt with rfl | ht
      · rw [e]; simp
      · rw [pchisq_fin ht x (Or.inl hx), if_pos hx0, fin_le_fin]
        have := (isCdf_chisq ht).le_one x
        simpa [hx0] using this
    · rw [pchisq_fin hs x (Or.inl hx), pchisq_fin (hs.trans_le hst) x (Or.inl hx), if_pos hx0, if_pos hx0, fin_le_fin]
      exact Ord.gammaP_anti (half_pos hs) (by linarith) (by positivity)
example : pchisq (fin 1) (fin 3) false ≤ pchisq (fin 1) (fin 2) false :=
  C53_pchisq 2 (by meets) 3 (by meets) (by meets) (fin 1) (by simp) false

theorem reg_pbeta {a b : ℝ} (ha : 0 ≤ a) (hb : 0 ≤ b) : RegCdf fun x => pbeta x (fin a) (fin b) :=
  ⟨C11_pbeta a b ha hb, fun x => C07_pbeta x _ _, fun _ => (C09_pbeta _ _ _).1⟩

theorem C53_pbeta_a {b : ℝ} (hb : 0 < b) : FallsWith (Set.Ioi 0) fun a x => pbeta x (fin a) (fin b) := by
  intro s hs t ht hst
  have hs : 0 < s := hs
  have ht : 0 < t := ht
  refine below_of ideal_log_mono (reg_pbeta ht.le hb.le) (reg_pbeta hs.le hb.le) fun x => ?_
  beta_reduce
  rw [pbeta_fin hs hb, pbeta_fin ht hb, fin_le_fin]
  exact Ord.betaCdf_anti hs hst hb x
example : pbeta (fin (1 / 3)) (fin 3) (fin 5) false ≤ pbeta (fin (1 / 3)) (fin 2) (fin 5) false :=
  C53_pbeta_a (by meets) 2 (by meets) 3 (by meets) (by meets) (fin (1 / 3)) (by simp) false

theorem C53_pbeta_b {a : ℝ} (ha : 0 < a) : RisesWith (Set.Ioi 0) fun b x => pbeta x (fin a) (fin b) := by
  intro s hs t ht hst
  have hs : 0 < s := hs
  have ht : 0 < t := ht
  refine below_of ideal_log_mono (reg_pbeta ha.le hs.le) (reg_pbeta ha.le ht.le) fun x => ?_
  beta_reduce
  rw [pbeta_fin ha hs, pbeta_fin ha ht, fin_le_fin]
  exact Ord.betaCdf_mono ha hs hst x
example : pbeta (fin (1 / 3)) (fin 5) (fin 2) false ≤ pbeta (fin (1 / 3)) (fin 5) (fin 3) false :=
  C53_pbeta_b (by meets) 2 (by meets) 3 (by meets) (by meets) (fin (1 / 3)) (by simp) false

theorem reg_pinvgamma {shape rate : ℝ} (hk : 0 < shape) (hr : 0 < rate) (hr' : Lib.eps ≤ 1 / rate) :
    RegCdf fun x => pinvgamma x (fin shape) (fin rate) :=
  ⟨C11_pinvgamma_partial hk.le hr.le (by rw [le_div_iff₀ hr] at hr'; linarith), fun x => C07_pinvgamma x _ _,
    fun _ => (C09_pinvgamma _ _ _).1⟩

theorem pinvgamma_far {shape rate : ℝ} (hk : 0 < shape) (hr : 0 < rate) (hr' : Lib.eps ≤ 1 / rate) {x : ℝ} (hx : 0 < x)
    (h : 1 / x < Lib.eps) : pinvgamma (fin x) (fin shape) (fin rate) false = fin 1 := by
  simp [pinvgamma, invgamma_ok', invgamma_ok, not_lt.2 hk.le, not_lt.2 hr.le, not_lt.2 hx.le, hx.ne', hr.ne',
    pinvgamma_limit_vals, pinvgamma_compute, ideal, ifin_div _ hr.ne', ifin_div _ hx.ne', pgamma, gamma_ok', gamma_ok,
    eps, -one_div, not_lt.2 hr', h]

/-- missing: rates above `1 / eps` (NaN) -/
theorem C53_pinvgamma_shape_partial {rate : ℝ} (hr : 0 < rate) (hr' : Lib.eps ≤ 1 / rate) :
    RisesWith (Set.Ioi 0) fun shape x => pinvgamma x (fin shape) (fin rate) := by
  intro s hs t ht hst
  have hs : 0 < s := hs
  have ht : 0 < t := ht
  refine below_of ideal_log_mono (reg_pinvgamma hs hr hr') (reg_pinvgamma ht hr hr') fun x => ?_
  beta_reduce
  by_cases hc : Lib.eps ≤ 1 / x ∨ x ≤ 0
  · rw [pinvgamma_fin hs hr hr' x hc, pinvgamma_fin ht hr hr' x hc, fin_le_fin]
    split_ifs with hx
    · have := Ord.gammaP_anti hs hst (show 0 < rate / x by positivity)
      linarith
    · exact le_rfl
  · rw [not_or, not_le, not_le] at hc
    rw [pinvgamma_far hs hr hr' hc.2 hc.1, pinvgamma_far ht hr hr' hc.2 hc.1]; simp
example : pinvgamma (fin 1) (fin 2) (fin 5) false ≤ pinvgamma (fin 1) (fin 3) (fin 5) false :=
  C53_pinvgamma_shape_partial (by meets) (by meets) 2 (by meets) 3 (by meets) (by meets) (fin 1) (by simp) false

/-- missing: rates above `1 / eps` (NaN) -/
theorem C53_pinvgamma_rate_partial {shape : ℝ} (hk : 0 < shape) :
    FallsWith {r | 0 < r ∧ Lib.eps ≤ 1 / r} fun rate x => pinvgamma x (fin shape) (fin rate) := by
  intro s hs t ht hst
  refine below_of ideal_log_mono (reg_pinvgamma hk ht.1 ht.2) (reg_pinvgamma hk hs.1 hs.2) fun x => ?_
  beta_reduce
  by_cases hc : Lib.eps ≤ 1 / x ∨ x ≤ 0
  · rw [pinvgamma_fin hk hs.1 hs.2 x hc, pinvgamma_fin hk ht.1 ht.2 x hc, fin_le_fin]
    split_ifs with hx
    · have := Ord.gammaP_le hk (show 0 ≤ s / x from div_nonneg hs.1.le hx.le) (show s / x ≤ t / x by gcongr)
      linarith
    · exact le_rfl
  · rw [not_or, not_le, not_le] at hc
    rw [pinvgamma_far hk hs.1 hs.2 hc.2 hc.1, pinvgamma_far hk ht.1 ht.2 hc.2 hc.1]; simp
example : pinvgamma (fin 1) (fin 5) (fin 3) false ≤ pinvgamma (fin 1) (fin 5) (fin 2) false :=
  C53_pinvgamma_rate_partial (by meets) 2 ⟨by meets, by meets⟩ 3 ⟨by meets, by meets⟩ (by meets) (fin 1) (by simp) false

theorem C53_pinvgauss_mu {lambda : ℝ} (hl : 0 < lambda) :
    FallsWith (Set.Ioi 0) fun mu x => pinvgauss x (fin mu) (fin lambda) := by
  intro s hs t ht hst
  have hs : 0 < s := hs
  have ht : 0 < t := ht
  have reg : ∀ {m : ℝ}, 0 < m → RegCdf fun x => pinvgauss x (fin m) (fin lambda) := fun {m} hm =>
    reg_of_value (C11_pinvgauss m lambda hm.le hl.le) (fun x => C07_pinvgauss x _ _) fun x =>
      ⟨_, pinvgauss_fin hm hl x, (isCdf_invgauss hm hl).nonneg' x, (isCdf_invgauss hm hl).le_one x⟩
  refine below_of ideal_log_mono (reg ht) (reg hs) fun x => ?_
  beta_reduce
  rw [pinvgauss_fin hs hl, pinvgauss_fin ht hl, fin_le_fin]
  split_ifs with hx
  · exact Ord.invgauss_anti hs hst hl hx
  · exact le_rfl
example : pinvgauss (fin 1) (fin 3) (fin 5) false ≤ pinvgauss (fin 1) (fin 2) (fin 5) false :=
  C53_pinvgauss_mu (by meets) 2 (by meets) 3 (by meets) (by meets) (fin 1) (by simp) false

theorem weibull_shape {x s t θ : ℝ} (hx : 0 < x) (hθ : 0 < θ) (hst : s ≤ t) :
    (θ ≤ x → 1 - Real.exp (-(x / θ) ^ s) ≤ 1 - Real.exp (-(x / θ) ^ t)) ∧
      (x ≤ θ → 1 - Real.exp (-(x / θ) ^ t) ≤ 1 - Real.exp (-(x / θ) ^ s)) := by
  constructor <;> intro h
  · have := Real.rpow_le_rpow_of_exponent_le (show 1 ≤ x / θ by rwa [le_div_iff₀ hθ, one_mul]) hst
    have := Real.exp_le_exp.2 (neg_le_neg this)
    linarith
  · have := Real.rpow_le_rpow_of_exponent_ge (show 0 < x / θ by positivity) (show x / θ ≤ 1 by rwa [div_le_one hθ]) hst
    have := Real.exp_le_exp.2 (neg_le_neg this)
    linarith

/-- A larger shape concentrates the Weibull distribution about its scale. -/
theorem C53_pweibull_shape {scale : ℝ} (hθ : Lib.eps ≤ scale) :
    NarrowsWith (Set.Ici Lib.eps) scale fun shape x => pweibull x (fin shape) (fin scale) := by
  have := Ideal.monoLib
  intro s hs t ht hst
  have hs : Lib.eps ≤ s := hs
  have ht : Lib.eps ≤ t := ht
  have he := Lib.eps_pos
  have cut : ∀ {c x : ℝ}, Lib.eps ≤ c → x < Lib.eps → pweibull (fin x) (fin c) (fin scale) false = fin 0 := by
    intro c x hc hx
    simp [pweibull, weibull_ok', weibull_ok, eps, hx, not_lt.2 hc, not_lt.2 hθ]
  refine wider_of MonoLib.log_mono (reg_pweibull hs hθ) (reg_pweibull ht hθ) ?_ ?_ <;> intro x hx <;> beta_reduce
  · rcases noCut_or x with h | h
    · rw [pweibull_fin hs hθ x h, pweibull_fin ht hθ x h, fin_le_fin]
      split_ifs with h0
      · exact (weibull_shape h0 (he.trans_le hθ) hst).1 hx
      · exact le_rfl
    · rw [cut hs h, cut ht h]; simp
  · rcases noCut_or x with h | h
    · rw [pweibull_fin hs hθ x h, pweibull_fin ht hθ x h, fin_le_fin]
      split_ifs with h0
      · exact (weibull_shape h0 (he.trans_le hθ) hst).2 hx
      · exact le_rfl
    · rw [cut hs h, cut ht h]; simp
example : pweibull (fin 7) (fin 2) (fin 5) true ≤ pweibull (fin 7) (fin 3) (fin 5) true :=
  (C53_pweibull_shape (by meets) 2 (Set.mem_Ici.2 (by meets)) 3 (Set.mem_Ici.2 (by meets)) (by meets)).1 (fin 7) (by meets) true

/-- More degrees of freedom concentrate Student's t about 0. -/
theorem C53_pt : NarrowsWith (Set.Ici Lib.eps) 0 fun dof x => pt x (fin dof) := by
  intro s hs t ht hst
  have hs : Lib.eps ≤ s := hs
  have ht : Lib.eps ≤ t := ht
  have he := Lib.eps_pos
  have reg : ∀ {d : ℝ}, Lib.eps ≤ d → RegCdf fun x => pt x (fin d) := fun {d} hd =>
    reg_of_value (C11_pt d hd) (fun x => C07_pt x _) fun x =>
      ⟨_, pt_fin hd x, (isCdf_t (he.trans_le hd)).nonneg' x, (isCdf_t (he.trans_le hd)).le_one x⟩
  refine wider_of ideal_log_mono (reg hs) (reg ht) ?_ ?_ <;> intro x hx <;> beta_reduce <;> rw [pt_fin hs, pt_fin ht, fin_le_fin]
  · exact Ord.tCdf_mono (he.trans_le hs) hst hx
  · exact Ord.tCdf_anti (he.trans_le hs) hst hx
example : pt (fin 7) (fin 2) true ≤ pt (fin 7) (fin 3) true :=
  (C53_pt 2 (Set.mem_Ici.2 (by meets)) 3 (Set.mem_Ici.2 (by meets)) (by meets)).1 (fin 7) (by meets) true

/-! ### Counts -/

theorem C53_pbinom_prob (n : ℕ) : FallsWithZ (Set.Icc (0 : ℝ) 1) fun p k => pbinom k n (fin p) := by
  intro s hs t ht hst k
  refine both_of ideal_log_mono (C07_pbinom k _ _) (C07_pbinom k _ _) ?_ ?_ <;> beta_reduce
  · rw [pbinom_fin n ht.1 ht.2]
    exact Or.inr (btw_fin (cumZ_nonneg (binomPmf_nonneg ht.1 ht.2) k)
      (cumZ_le (binomPmf_nonneg ht.1 ht.2) (hasSum_binom n t) k))
  · rw [pbinom_fin n hs.1 hs.2, pbinom_fin n ht.1 ht.2, fin_le_fin]
    exact Ord.binom_anti hs.1 hst ht.2 k
example : pbinom 2 5 (fin (1 / 2)) true ≤ pbinom 2 5 (fin (1 / 3)) true :=
  C53_pbinom_prob 5 (1 / 3) (by meets) (1 / 2) (by meets) (by meets) 2 true

theorem C53_pbinom_trials {p : ℝ} (h0 : 0 ≤ p) (h1 : p ≤ 1) :
    FallsWithZ (Set.univ : Set ℕ) fun n k => pbinom k n (fin p) := by
  intro m _ n _ hmn k
  refine both_of ideal_log_mono (C07_pbinom k _ _) (C07_pbinom k _ _) ?_ ?_ <;> beta_reduce
  · rw [pbinom_fin n h0 h1]
    exact Or.inr (btw_fin (cumZ_nonneg (binomPmf_nonneg h0 h1) k)
      (cumZ_le (binomPmf_nonneg h0 h1) (hasSum_binom n p) k))
  · rw [pbinom_fin n h0 h1, pbinom_fin m h0 h1, fin_le_fin]
    exact Ord.binom_size hmn h0 h1 k
example : pbinom 2 7 (fin (1 / 3)) true ≤ pbinom 2 5 (fin (1 / 3)) true :=
  C53_pbinom_trials (p := 1 / 3) (by meets) (by meets) 5 trivial 7 trivial (by meets) 2 true

theorem C53_ppois : FallsWithZ (Set.Ici (0 : ℝ)) fun rate k => ppois k (fin rate) := by
  intro s hs t ht hst k
  have hs : 0 ≤ s := hs
  have ht : 0 ≤ t := ht
  refine both_of ideal_log_mono (C07_ppois k _) (C07_ppois k _) ?_ ?_ <;> beta_reduce
  · rw [ppois_fin ht]
    exact Or.inr (btw_fin (cumZ_nonneg (poisPmf_nonneg ht) k) (cumZ_le (poisPmf_nonneg ht) (hasSum_pois t) k))
  · rw [ppois_fin hs, ppois_fin ht, fin_le_fin]
    exact Ord.pois_anti hs hst k
example : ppois 2 (fin 5) true ≤ ppois 2 (fin 3) true := C53_ppois 3 (by meets) 5 (by meets) (by meets) 2 true

end exact
end Stats

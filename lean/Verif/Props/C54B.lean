import Verif.Props.C54
import Verif.Props.C08E
import Verif.Lemmas.Mode
import Verif.Lemmas.Meets

/-!
# C54, continued: exact arithmetic

Strict rise and fall of every density inside its support, with the textbook mode, and the shape over the whole line
including the ends of the support and the infinities; the binomial and Poisson probabilities.
-/

set_option linter.unusedSectionVars false
open Classical Filter Topology
namespace Stats
open Fl Spec
variable [Lib] [Ideal]

theorem dens_lt {s : Set ℝ} {d : Fl → Bool → Fl} {f : ℝ → ℝ} (hd : IsDensityOn d f s) {x y : ℝ} (hx : x ∈ s)
    (hy : y ∈ s) (h : f x < f y) (b : Bool) : d (fin x) b < d (fin y) b := by
  obtain ⟨x0, x1, x2⟩ := hd x hx
  obtain ⟨_, y1, y2⟩ := hd y hy
  cases b
  · rw [x1, y1]; simpa using h
  · rw [x2, y2]; simpa using Real.log_lt_log x0 h

theorem peakOn_of {s : Set ℝ} {m : ℝ} {d : Fl → Bool → Fl} {f : ℝ → ℝ} (hd : IsDensityOn d f s)
    (hp : Mode.Peak s m f) : PeakOn s m d :=
  ⟨fun _ hx _ hy hxy hm => dens_lt hd hx hy (hp.1 ⟨hx, hxy.le.trans hm⟩ ⟨hy, hm⟩ hxy),
    fun _ hx _ hy hm hxy => dens_lt hd hy hx (hp.2 ⟨hx, hm⟩ ⟨hy, hm.trans hxy.le⟩ hxy)⟩

/-! ### Strict shape inside the support -/

theorem C54_dnorm_peak (mu : ℝ) {sigma : ℝ} (h : 0 < sigma) :
    PeakOn Set.univ mu fun x => dnorm x (fin mu) (fin sigma) := peakOn_of (C08_dnorm mu h) (Mode.norm mu h)
example : PeakOn Set.univ 3 fun x => dnorm x (fin 3) (fin 2) := C54_dnorm_peak (mu := 3) (sigma := 2) (h := by meets)

theorem C54_dcauchy_peak (mu : ℝ) {sigma : ℝ} (h : 0 < sigma) :
    PeakOn Set.univ mu fun x => dcauchy x (fin mu) (fin sigma) := peakOn_of (C08_dcauchy mu h) (Mode.cauchy mu h)
example : PeakOn Set.univ 3 fun x => dcauchy x (fin 3) (fin 2) :=
  C54_dcauchy_peak (mu := 3) (sigma := 2) (h := by meets)

theorem C54_dlaplace_peak (mu : ℝ) {sigma : ℝ} (h : 0 < sigma) :
    PeakOn Set.univ mu fun x => dlaplace x (fin mu) (fin sigma) := peakOn_of (C08_dlaplace mu h) (Mode.laplace mu h)
example : PeakOn Set.univ 3 fun x => dlaplace x (fin 3) (fin 2) :=
  C54_dlaplace_peak (mu := 3) (sigma := 2) (h := by meets)

theorem C54_dlogis_peak (mu : ℝ) {sigma : ℝ} (h : 0 < sigma) :
    PeakOn Set.univ mu fun x => dlogis x (fin mu) (fin sigma) := peakOn_of (C08_dlogis mu h) (Mode.logis mu h)
example : PeakOn Set.univ 3 fun x => dlogis x (fin 3) (fin 2) :=
  C54_dlogis_peak (mu := 3) (sigma := 2) (h := by meets)

theorem C54_dt_peak {dof : ℝ} (h : Lib.eps ≤ dof) : PeakOn Set.univ 0 fun x => dt x (fin dof) :=
  peakOn_of (C08_dt h) (Mode.t (Lib.eps_pos.trans_le h))
example : PeakOn Set.univ 0 fun x => dt x (fin 4) := C54_dt_peak (dof := 4) (h := by meets)

theorem C54_dlnorm_peak (mu : ℝ) {sigma : ℝ} (h : 0 < sigma) :
    PeakOn (Set.Ioi 0) (Real.exp (mu - sigma ^ 2)) fun x => dlnorm x (fin mu) (fin sigma) :=
  peakOn_of (C08_dlnorm mu h) (Mode.lnorm mu h)
example : PeakOn (Set.Ioi 0) (Real.exp (3 - 2 ^ 2)) fun x => dlnorm x (fin 3) (fin 2) :=
  C54_dlnorm_peak (mu := 3) (sigma := 2) (h := by meets)

theorem C54_dexp_peak {rate : ℝ} (h : 0 < rate) : PeakOn (Set.Ici 0) 0 fun x => dexp x (fin rate) := by
  refine peakOn_of (C08_dexp h) ⟨fun x hx y hy hxy => ?_, fun x hx y hy hxy => ?_⟩
  · have h1 : 0 ≤ x := hx.1
    have h2 : y ≤ 0 := hy.2
    linarith
  · have h1 : 0 ≤ x := hx.1
    have h2 : 0 ≤ y := hy.1
    simp only [expPdf, h1, h2, if_true]
    exact mul_lt_mul_of_pos_left (Real.exp_lt_exp.2 (by nlinarith)) h
example : PeakOn (Set.Ici 0) 0 fun x => dexp x (fin 2) := C54_dexp_peak (rate := 2) (h := by meets)

/-- The mode is `(k-1)θ` for a shape above 1; otherwise the density only falls. -/
theorem C54_dgamma_peak {shape scale : ℝ} (hk : 0 < shape) (hs : Lib.eps ≤ scale) :
    PeakOn (Set.Ioi 0) ((shape - 1) * scale) fun x => dgamma x (fin shape) (fin scale) :=
  peakOn_of (C08_dgamma hk hs) (Mode.gamma hk (Lib.eps_pos.trans_le hs))
example : PeakOn (Set.Ioi 0) ((3 - 1) * 2) fun x => dgamma x (fin 3) (fin 2) :=
  C54_dgamma_peak (shape := 3) (scale := 2) (hk := by meets) (hs := by meets)

theorem C54_dchisq_peak {dof : ℝ} (h : 0 < dof) : PeakOn (Set.Ioi 0) (dof - 2) fun x => dchisq x (fin dof) :=
  peakOn_of (C08_dchisq h) (Mode.chisq h)
example : PeakOn (Set.Ioi 0) (4 - 2) fun x => dchisq x (fin 4) := C54_dchisq_peak (dof := 4) (h := by meets)

theorem C54_dinvgamma_peak {shape rate : ℝ} (hk : 0 < shape) (hr : 0 < rate) :
    PeakOn (Set.Ioi 0) (rate / (shape + 1)) fun x => dinvgamma x (fin shape) (fin rate) :=
  peakOn_of (C08_dinvgamma hk hr) (Mode.invgamma hk hr)
example : PeakOn (Set.Ioi 0) (2 / (3 + 1)) fun x => dinvgamma x (fin 3) (fin 2) :=
  C54_dinvgamma_peak (shape := 3) (rate := 2) (hk := by meets) (hr := by meets)

/-- The mode of the inverse Gaussian: `μ(√(1 + 9μ²/(4λ²)) - 3μ/(2λ))`. -/
theorem C54_dinvgauss_peak {mu lambda : ℝ} (hm : 0 < mu) (hl : 0 < lambda) :
    PeakOn (Set.Ioi 0) (mu * (√(1 + 9 * mu ^ 2 / (4 * lambda ^ 2)) - 3 * mu / (2 * lambda)))
      fun x => dinvgauss x (fin mu) (fin lambda) := by
  have e : mu * (√(1 + 9 * mu ^ 2 / (4 * lambda ^ 2)) - 3 * mu / (2 * lambda)) = igMode mu lambda := by
    rw [igMode, show 9 * (mu / lambda) * (mu / lambda) / 4 = 9 * mu ^ 2 / (4 * lambda ^ 2) by field_simp,
      show 3 * (mu / lambda) / 2 = 3 * mu / (2 * lambda) by field_simp]
  rw [e]
  exact peakOn_of (C08_dinvgauss hm hl) (Mode.invgauss hm hl)
example : PeakOn (Set.Ioi 0) (3 * (√(1 + 9 * 3 ^ 2 / (4 * 2 ^ 2)) - 3 * 3 / (2 * 2)))
      fun x => dinvgauss x (fin 3) (fin 2) :=
  C54_dinvgauss_peak (mu := 3) (lambda := 2) (hm := by meets) (hl := by meets)

theorem C54_df_peak {d1 d2 : ℝ} (h1 : Lib.eps ≤ d1) (h2 : Lib.eps ≤ d2) :
    PeakOn (Set.Ioi 0) ((d1 - 2) / d1 * (d2 / (d2 + 2))) fun x => df x (fin d1) (fin d2) :=
  peakOn_of (C08_df h1 h2) (Mode.f (Lib.eps_pos.trans_le h1) (Lib.eps_pos.trans_le h2))
example : PeakOn (Set.Ioi 0) ((3 - 2) / 3 * (5 / (5 + 2))) fun x => df x (fin 3) (fin 5) :=
  C54_df_peak (d1 := 3) (d2 := 5) (h1 := by meets) (h2 := by meets)

theorem C54_dweibull_peak {shape scale : ℝ} (hk : 1 < shape) (hs : Lib.eps ≤ scale) :
    PeakOn (Set.Ioi 0) (scale * ((shape - 1) / shape) ^ (1 / shape)) fun x => dweibull x (fin shape) (fin scale) :=
  peakOn_of (C08_dweibull (by have := Lib.eps_le; linarith) hs) (Mode.weibull_big hk (Lib.eps_pos.trans_le hs))
example : dweibull (fin 7) (fin 2) (fin 3) true < dweibull (fin 6) (fin 2) (fin 3) true :=
  (C54_dweibull_peak (shape := 2) (scale := 3) (by meets) (by meets)).2 6 (by simp) 7 (by simp) (by
    have : ((2 - 1 : ℝ) / 2) ^ (1 / 2 : ℝ) ≤ 1 := Real.rpow_le_one (by norm_num) (by norm_num) (by norm_num)
    linarith) (by meets) true

theorem C54_dweibull_falls {shape scale : ℝ} (hk : Lib.eps ≤ shape) (hk1 : shape ≤ 1) (hs : Lib.eps ≤ scale) :
    PeakOn (Set.Ioi 0) 0 fun x => dweibull x (fin shape) (fin scale) :=
  peakOn_of (C08_dweibull hk hs) (Mode.weibull_small (Lib.eps_pos.trans_le hk) hk1 (Lib.eps_pos.trans_le hs))
example : PeakOn (Set.Ioi 0) 0 fun x => dweibull x (fin (1 / 2)) (fin 2) :=
  C54_dweibull_falls (shape := 1 / 2) (scale := 2) (hk := by meets) (hk1 := by meets) (hs := by meets)

theorem C54_dbeta_peak {a b : ℝ} (ha : 1 ≤ a) (hb : 1 ≤ b) (h : 2 < a + b) :
    PeakOn (Set.Ioo 0 1) ((a - 1) / (a + b - 2)) fun x => dbeta x (fin a) (fin b) :=
  peakOn_of (C08_dbeta (by linarith) (by linarith)) (Mode.beta ha hb h)
example : PeakOn (Set.Ioo 0 1) ((1 - 1) / (1 + 4 - 2)) fun x => dbeta x (fin 1) (fin 4) :=
  C54_dbeta_peak (a := 1) (b := 4) (ha := by meets) (hb := by meets) (h := by meets)

theorem C54_dbeta_falls {a b : ℝ} (ha : 0 < a) (ha1 : a ≤ 1) (hb : 1 ≤ b) (h : a < b) :
    PeakOn (Set.Ioo 0 1) 0 fun x => dbeta x (fin a) (fin b) :=
  peakOn_of (C08_dbeta ha (by linarith)) (Mode.beta_left ha ha1 hb h)
example : PeakOn (Set.Ioo 0 1) 0 fun x => dbeta x (fin 1) (fin 4) :=
  C54_dbeta_falls (a := 1) (b := 4) (ha := by meets) (ha1 := by meets) (hb := by meets) (h := by meets)

theorem C54_dbeta_rises {a b : ℝ} (hb0 : 0 < b) (hb : b ≤ 1) (ha : 1 ≤ a) (h : b < a) :
    PeakOn (Set.Ioo 0 1) 1 fun x => dbeta x (fin a) (fin b) :=
  peakOn_of (C08_dbeta (by linarith) hb0) (Mode.beta_right hb0 hb ha h)
example : dbeta (fin (1 / 4)) (fin 3) (fin (1 / 2)) true < dbeta (fin (1 / 2)) (fin 3) (fin (1 / 2)) true :=
  (C54_dbeta_rises (a := 3) (b := 1 / 2) (by meets) (by meets) (by meets) (by meets)).1 (1 / 4)
    (by constructor <;> norm_num) (1 / 2) (by constructor <;> norm_num) (by norm_num) (by norm_num) true

/-- Both parameters below 1: the density is U-shaped. -/
theorem C54_dbeta_valley {a b : ℝ} (ha : 0 < a) (ha1 : a < 1) (hb : 0 < b) (hb1 : b < 1) :
    ValleyOn (Set.Ioo 0 1) ((1 - a) / (2 - a - b)) fun x => dbeta x (fin a) (fin b) := by
  have hd := C08_dbeta ha hb
  have hv := Mode.beta_valley ha ha1 hb hb1
  exact ⟨fun x hx y hy hxy hm => dens_lt hd hy hx (hv.1 ⟨hx, hxy.le.trans hm⟩ ⟨hy, hm⟩ hxy),
    fun x hx y hy hm hxy => dens_lt hd hx hy (hv.2 ⟨hx, hm⟩ ⟨hy, hm.trans hxy.le⟩ hxy)⟩
example : dbeta (fin (1 / 2)) (fin (1 / 2)) (fin (1 / 2)) true < dbeta (fin (1 / 4)) (fin (1 / 2)) (fin (1 / 2)) true :=
  (C54_dbeta_valley (a := 1 / 2) (b := 1 / 2) (by meets) (by meets) (by meets) (by meets)).1 (1 / 4)
    (by constructor <;> norm_num) (1 / 2) (by constructor <;> norm_num) (by norm_num) (by norm_num) true

/-! ### The whole line -/

/-- a non-negative number or `+inf`, in both forms -/
inductive HasVal : (Bool → Fl) → EReal → Prop
  | real {v r} : IsValue v r → HasVal v (r : ℝ)
  | pole {v} : IsPole v → HasVal v ⊤

theorem HasVal.le {v w : Bool → Fl} {e e' : EReal} (hv : HasVal v e) (hw : HasVal w e') (h : e ≤ e') (b : Bool) :
    v b ≤ w b := by
  cases hv with
  | pole hv =>
    obtain rfl : e' = ⊤ := top_le_iff.1 h
    cases hw with
    | pole hw => cases b <;> simp [hv.1, hv.2, hw.1, hw.2]
  | @real r hv =>
    obtain ⟨h1, h2, h3⟩ := hv
    cases hw with
    | pole hw =>
      cases b
      · rw [h2, hw.1]; simp
      · rw [h3, hw.2]; split_ifs <;> simp
    | @real s hw =>
      obtain ⟨k1, k2, k3⟩ := hw
      have h : r ≤ s := by exact_mod_cast h
      cases b
      · rw [h2, k2]; simpa using h
      · rw [h3, k3]
        split_ifs with a1 a2 a2
        · simp
        · simp
        · subst a2; exact absurd (le_antisymm h h1) a1
        · simpa using Real.log_le_log (lt_of_le_of_ne h1 (Ne.symm a1)) h

theorem HasVal.nonneg {v : Bool → Fl} {e : EReal} (hv : HasVal v e) : 0 ≤ e := by
  cases hv with
  | real h => exact_mod_cast h.1
  | pole h => simp

theorem hasVal_zero {v : Bool → Fl} (h : VanishesAt v) : HasVal v (0 : ℝ) :=
  .real ⟨le_rfl, h.1, by rw [h.2]; simp⟩

theorem hasVal_dens {s : Set ℝ} {d : Fl → Bool → Fl} {f : ℝ → ℝ} (hd : IsDensityOn d f s) {x : ℝ} (hx : x ∈ s) :
    HasVal (d (fin x)) (f x) := by
  obtain ⟨h1, h2, h3⟩ := hd x hx
  exact .real ⟨h1.le, h2, by rw [h3, if_neg h1.ne']⟩

/-- value at an end of the support -/
theorem hasVal_limit {v : Bool → Fl} {f : ℝ → ℝ} {l : Filter ℝ} [l.NeBot] (h : IsLimitValue v f l) :
    ∃ e, HasVal v e ∧ (∀ r, (∀ᶠ x in l, f x ≤ r) → e ≤ (r : ℝ)) ∧ ∀ r, (∀ᶠ x in l, r ≤ f x) → ((r : ℝ) : EReal) ≤ e := by
  rcases h with ⟨r, h1, h2⟩ | ⟨h1, h2⟩
  · exact ⟨_, .real h1, fun s hs => by exact_mod_cast le_of_tendsto h2 hs,
      fun s hs => by exact_mod_cast ge_of_tendsto h2 hs⟩
  · refine ⟨_, .pole h1, fun s hs => ?_, fun s _ => le_top⟩
    obtain ⟨x, hx1, hx2⟩ := (hs.and (h2.eventually_gt_atTop s)).exists
    linarith

theorem unimodalOn_half {m : ℝ} {d : Fl → Bool → Fl} {f : ℝ → ℝ} (hd : IsDensityOn d f (Set.Ioi 0))
    (hp : Mode.Peak (Set.Ioi 0) m f) (hz : IsLimitValue (d (fin 0)) f (𝓝[>] 0))
    (hn : ∀ x < 0, VanishesAt (d (fin x))) : UnimodalOn Set.univ (max 0 m) d := by
  obtain ⟨e, he, h1, h2⟩ := hasVal_limit hz
  have hall : ∀ x : ℝ, ∃ e, HasVal (d (fin x)) e := by
    intro x
    rcases lt_trichotomy x 0 with hx | rfl | hx
    · exact ⟨_, hasVal_zero (hn x hx)⟩
    · exact ⟨e, he⟩
    · exact ⟨_, hasVal_dens hd hx⟩
  constructor
  · intro x _ y _ hxy hy b
    obtain ⟨ey, hy'⟩ := hall y
    rcases lt_trichotomy x 0 with hx | rfl | hx
    · exact (hasVal_zero (hn x hx)).le hy' hy'.nonneg b
    · rcases hxy.eq_or_lt with rfl | h0
      · exact he.le he le_rfl b
      · have hm : y ≤ m := by rcases le_max_iff.1 hy with h | h <;> linarith
        refine he.le (hasVal_dens hd h0) (h1 _ ?_) b
        filter_upwards [Ioo_mem_nhdsGT h0] with z hz
        exact (hp.1 ⟨hz.1, hz.2.le.trans hm⟩ ⟨h0, hm⟩ hz.2).le
    · have h0 := hx.trans_le hxy
      have hm : y ≤ m := by rcases le_max_iff.1 hy with h | h <;> linarith
      refine (hasVal_dens hd hx).le (hasVal_dens hd h0) ?_ b
      exact_mod_cast hp.1.monotoneOn ⟨hx, hxy.trans hm⟩ ⟨h0, hm⟩ hxy
  · intro x _ y _ hx hxy b
    have hx0 := (le_max_left 0 m).trans hx
    have hxm := (le_max_right 0 m).trans hx
    rcases hx0.eq_or_lt with rfl | hx0
    · rcases hxy.eq_or_lt with rfl | h0
      · exact he.le he le_rfl b
      · refine (hasVal_dens hd h0).le he (h2 _ ?_) b
        filter_upwards [Ioo_mem_nhdsGT h0] with z hz
        exact (hp.2 ⟨hz.1, hxm.trans hz.1.le⟩ ⟨h0, hxm.trans h0.le⟩ hz.2).le
    · have h0 := hx0.trans_le hxy
      refine (hasVal_dens hd h0).le (hasVal_dens hd hx0) ?_ b
      exact_mod_cast hp.2.antitoneOn ⟨hx0, hxm⟩ ⟨h0, hxm.trans hxy⟩ hxy

theorem unimodal_half {m : ℝ} {d : Fl → Bool → Fl} {f : ℝ → ℝ} (hd : IsDensityOn d f (Set.Ioi 0))
    (hp : Mode.Peak (Set.Ioi 0) m f) (hz : IsLimitValue (d (fin 0)) f (𝓝[>] 0))
    (hn : ∀ x, Outside (Set.Ici 0) x → VanishesAt (d x)) : Unimodal (max 0 m) d := by
  have hn' : ∀ x < 0, VanishesAt (d (fin x)) := fun x hx =>
    hn _ ⟨by simp, fun r hr h => by simp at h; subst h; exact absurd hx (not_lt.2 hr)⟩
  refine unimodal_of_on (unimodalOn_half hd hp hz hn') (hn _ (outside_ninf _)) (hn _ (outside_pinf _)) fun x => ?_
  rcases lt_trichotomy x 0 with hx | rfl | hx
  · rw [(hn' x hx).1]; simp
  · rcases hz with ⟨r, h1, _⟩ | ⟨h1, _⟩
    · rw [h1.2.1]; simpa using h1.1
    · rw [h1.1]; simp
  · obtain ⟨h1, h2, _⟩ := hd x hx
    rw [h2]; simpa using h1.le

theorem unimodal_univ {m : ℝ} {d : Fl → Bool → Fl} {f : ℝ → ℝ} (hd : IsDensityOn d f Set.univ)
    (hp : Mode.Peak Set.univ m f) (hn : ∀ x, Outside Set.univ x → VanishesAt (d x)) : Unimodal m d := by
  refine unimodal_of_on ⟨fun x _ y _ hxy hy => ?_, fun x _ y _ hx hxy => ?_⟩ (hn _ (outside_ninf _))
    (hn _ (outside_pinf _)) fun x => by
      obtain ⟨h1, h2, _⟩ := hd x trivial
      rw [h2]; simpa using h1.le
  · refine (hasVal_dens hd trivial).le (hasVal_dens hd trivial) ?_
    exact_mod_cast hp.1.monotoneOn ⟨trivial, hxy.trans hy⟩ ⟨trivial, hy⟩ hxy
  · refine (hasVal_dens hd trivial).le (hasVal_dens hd trivial) ?_
    exact_mod_cast hp.2.antitoneOn ⟨trivial, hx⟩ ⟨trivial, hx.trans hxy⟩ hxy

/-- Logistic density (the other symmetric families are in `C54`, for every rounding). -/
theorem C54_dlogis (mu : ℝ) {sigma : ℝ} (h : 0 < sigma) : Unimodal mu fun x => dlogis x (fin mu) (fin sigma) :=
  unimodal_univ (C08_dlogis mu h) (Mode.logis mu h) fun _ hx => C05_dlogis hx mu sigma h.le
example : Unimodal 3 fun x => dlogis x (fin 3) (fin 2) := C54_dlogis (mu := 3) (sigma := 2) (h := by meets)

theorem C54_dlnorm (mu : ℝ) {sigma : ℝ} (h : 0 < sigma) :
    Unimodal (Real.exp (mu - sigma ^ 2)) fun x => dlnorm x (fin mu) (fin sigma) := by
  have := unimodal_half (C08_dlnorm mu h) (Mode.lnorm mu h) (C08_dlnorm_zero mu h)
    fun _ hx => C05_dlnorm hx mu sigma h.le
  rwa [max_eq_right (Real.exp_pos _).le] at this
example : Unimodal (Real.exp (3 - 2 ^ 2)) fun x => dlnorm x (fin 3) (fin 2) :=
  C54_dlnorm (mu := 3) (sigma := 2) (h := by meets)

theorem C54_dgamma {shape scale : ℝ} (hk : 0 < shape) (hs : Lib.eps ≤ scale) :
    Unimodal (max 0 ((shape - 1) * scale)) fun x => dgamma x (fin shape) (fin scale) :=
  unimodal_half (C08_dgamma hk hs) (Mode.gamma hk (Lib.eps_pos.trans_le hs)) (C08_dgamma_zero hk hs)
    fun _ hx => C05_dgamma hx shape scale hk.le hs
example : Unimodal (max 0 ((3 - 1) * 2)) fun x => dgamma x (fin 3) (fin 2) :=
  C54_dgamma (shape := 3) (scale := 2) (hk := by meets) (hs := by meets)

theorem C54_dchisq {dof : ℝ} (h : 0 < dof) : Unimodal (max 0 (dof - 2)) fun x => dchisq x (fin dof) :=
  unimodal_half (C08_dchisq h) (Mode.chisq h) (C08_dchisq_zero h) fun _ hx => C05_dchisq hx dof h.le
example : Unimodal (max 0 (4 - 2)) fun x => dchisq x (fin 4) := C54_dchisq (dof := 4) (h := by meets)

theorem C54_dinvgamma {shape rate : ℝ} (hk : 0 < shape) (hr : 0 < rate) :
    Unimodal (rate / (shape + 1)) fun x => dinvgamma x (fin shape) (fin rate) := by
  have := unimodal_half (C08_dinvgamma hk hr) (Mode.invgamma hk hr) (C08_dinvgamma_zero hk hr)
    fun _ hx => C05_dinvgamma_partial hx hk.le hr.le (Or.inr hk.ne')
  rwa [max_eq_right (by positivity)] at this
example : Unimodal (2 / (3 + 1)) fun x => dinvgamma x (fin 3) (fin 2) :=
  C54_dinvgamma (shape := 3) (rate := 2) (hk := by meets) (hr := by meets)

theorem igMode_eq {mu lambda : ℝ} (hl : 0 < lambda) :
    mu * (√(1 + 9 * mu ^ 2 / (4 * lambda ^ 2)) - 3 * mu / (2 * lambda)) = igMode mu lambda := by
  rw [igMode, show 9 * (mu / lambda) * (mu / lambda) / 4 = 9 * mu ^ 2 / (4 * lambda ^ 2) by field_simp,
    show 3 * (mu / lambda) / 2 = 3 * mu / (2 * lambda) by field_simp]

theorem C54_dinvgauss {mu lambda : ℝ} (hm : 0 < mu) (hl : 0 < lambda) :
    Unimodal (mu * (√(1 + 9 * mu ^ 2 / (4 * lambda ^ 2)) - 3 * mu / (2 * lambda)))
      fun x => dinvgauss x (fin mu) (fin lambda) := by
  have := unimodal_half (C08_dinvgauss hm hl) (Mode.invgauss hm hl) (C08_dinvgauss_zero hm hl)
    fun _ hx => C05_dinvgauss hx mu lambda hm.le hl.le
  rwa [max_eq_right (igMode_root hm hl).1.le, ← igMode_eq hl] at this
example : Unimodal (3 * (√(1 + 9 * 3 ^ 2 / (4 * 2 ^ 2)) - 3 * 3 / (2 * 2)))
      fun x => dinvgauss x (fin 3) (fin 2) :=
  C54_dinvgauss (mu := 3) (lambda := 2) (hm := by meets) (hl := by meets)

/-- F density, real arguments. Missing: `+inf`, where it is NaN for `d1 < 2` or `d2 < 1` (`C43_df_x_violated`). -/
theorem C54_df_partial {d1 d2 : ℝ} (h1 : Lib.eps ≤ d1) (h2 : Lib.eps ≤ d2) :
    UnimodalOn Set.univ (max 0 ((d1 - 2) / d1 * (d2 / (d2 + 2)))) fun x => df x (fin d1) (fin d2) :=
  unimodalOn_half (C08_df h1 h2) (Mode.f (Lib.eps_pos.trans_le h1) (Lib.eps_pos.trans_le h2)) (C08_df_zero h1 h2)
    fun x hx => C05_df_partial ⟨by simp, fun r hr h => by simp at h; subst h; exact absurd hx (not_lt.2 hr)⟩ h1 h2
      (Or.inl (by simp))
example : UnimodalOn Set.univ (max 0 ((3 - 2) / 3 * (5 / (5 + 2)))) fun x => df x (fin 3) (fin 5) :=
  C54_df_partial (d1 := 3) (d2 := 5) (h1 := by meets) (h2 := by meets)

theorem C54_df {d1 d2 : ℝ} (h1 : 2 ≤ d1) (h2 : 1 ≤ d2) :
    Unimodal ((d1 - 2) / d1 * (d2 / (d2 + 2))) fun x => df x (fin d1) (fin d2) := by
  have e := Lib.eps_le
  have e1 : Lib.eps ≤ d1 := by linarith
  have e2 : Lib.eps ≤ d2 := by linarith
  have := unimodal_half (C08_df e1 e2) (Mode.f (Lib.eps_pos.trans_le e1) (Lib.eps_pos.trans_le e2)) (C08_df_zero e1 e2)
    fun _ hx => C05_df_partial hx e1 e2 (Or.inr ⟨h1, h2⟩)
  rwa [max_eq_right (mul_nonneg (div_nonneg (by linarith) (by linarith)) (by positivity))] at this
example : Unimodal ((3 - 2) / 3 * (5 / (5 + 2))) fun x => df x (fin 3) (fin 5) :=
  C54_df (d1 := 3) (d2 := 5) (h1 := by meets) (h2 := by meets)

theorem C54_dweibull_big {shape scale : ℝ} (hk : 1 < shape) (hs : Lib.eps ≤ scale) :
    Unimodal (scale * ((shape - 1) / shape) ^ (1 / shape)) fun x => dweibull x (fin shape) (fin scale) := by
  have e : Lib.eps ≤ shape := by have := Lib.eps_le; linarith
  have hs0 := Lib.eps_pos.trans_le hs
  have := unimodal_half (C08_dweibull e hs) (Mode.weibull_big hk hs0) (C08_dweibull_zero_partial e hs hk.ne')
    fun _ hx => C05_dweibull hx shape scale e hs
  rwa [max_eq_right (mul_nonneg hs0.le (Real.rpow_nonneg (div_nonneg (by linarith) (by linarith)) _))] at this
example : dweibull pinf (fin 2) (fin 3) true ≤ dweibull (fin 6) (fin 2) (fin 3) true :=
  (C54_dweibull_big (shape := 2) (scale := 3) (by meets) (by meets)).2 (fin 6) pinf (by
    have : ((2 - 1 : ℝ) / 2) ^ (1 / 2 : ℝ) ≤ 1 := Real.rpow_le_one (by norm_num) (by norm_num) (by norm_num)
    simp only [fin_le_fin]
    linarith) (by meets) true

/-- For shape 1 the density is NaN at 0 (`C08_dweibull_zero_violated`). -/
theorem C54_dweibull_small {shape scale : ℝ} (hk : Lib.eps ≤ shape) (hk1 : shape < 1) (hs : Lib.eps ≤ scale) :
    Unimodal 0 fun x => dweibull x (fin shape) (fin scale) := by
  have := unimodal_half (C08_dweibull hk hs)
    (Mode.weibull_small (Lib.eps_pos.trans_le hk) hk1.le (Lib.eps_pos.trans_le hs))
    (C08_dweibull_zero_partial hk hs hk1.ne) fun _ hx => C05_dweibull hx shape scale hk hs
  rwa [max_eq_left le_rfl] at this
example : Unimodal 0 fun x => dweibull x (fin (1 / 2)) (fin 2) :=
  C54_dweibull_small (shape := 1 / 2) (scale := 2) (hk := by meets) (hk1 := by meets) (hs := by meets)

/-- density on `(0,1)` -/
theorem unimodal_unit {m : ℝ} (hm : m ∈ Set.Icc (0 : ℝ) 1) {d : Fl → Bool → Fl} {f : ℝ → ℝ}
    (hd : IsDensityOn d f (Set.Ioo 0 1)) (hp : Mode.Peak (Set.Ioo 0 1) m f) (hz : IsLimitValue (d (fin 0)) f (𝓝[>] 0))
    (ho : IsLimitValue (d (fin 1)) f (𝓝[<] 1)) (hn : ∀ x, Outside (Set.Icc 0 1) x → VanishesAt (d x)) : Unimodal m d := by
  obtain ⟨e, he, h1, h2⟩ := hasVal_limit hz
  obtain ⟨e', he', h1', h2'⟩ := hasVal_limit ho
  have hn' : ∀ x, (x < 0 ∨ 1 < x) → VanishesAt (d (fin x)) := fun x hx =>
    hn _ ⟨by simp, fun r hr h => by
      simp at h; subst h; rcases hx with hx | hx; exacts [absurd hx (not_lt.2 hr.1), absurd hx (not_lt.2 hr.2)]⟩
  have hv : ∀ x ∈ Set.Icc (0 : ℝ) 1, ∃ e, HasVal (d (fin x)) e := by
    intro x hx
    rcases hx.1.eq_or_lt with rfl | h0
    · exact ⟨e, he⟩
    · rcases hx.2.eq_or_lt with rfl | h0'
      · exact ⟨e', he'⟩
      · exact ⟨_, hasVal_dens hd ⟨h0, h0'⟩⟩
  have hall : ∀ x : ℝ, ∃ e, HasVal (d (fin x)) e := by
    intro x
    by_cases hx : x ∈ Set.Icc (0 : ℝ) 1
    · exact hv x hx
    · rw [Set.mem_Icc, not_and_or, not_le, not_le] at hx
      exact ⟨_, hasVal_zero (hn' x hx)⟩
  have hI : ∀ {a b : ℝ}, 0 < a → a ≤ b → b < 1 → a ∈ Set.Ioo (0 : ℝ) 1 ∧ b ∈ Set.Ioo (0 : ℝ) 1 := fun h h' h'' =>
    ⟨⟨h, h'.trans_lt h''⟩, h.trans_le h', h''⟩
  refine unimodal_of_on ⟨fun x _ y _ hxy hy b => ?_, fun x _ y _ hx hxy b => ?_⟩ (hn _ (outside_ninf _))
    (hn _ (outside_pinf _)) fun x => ?_
  · obtain ⟨ey, hy'⟩ := hall y
    rcases lt_trichotomy x 0 with hx | rfl | hx
    · exact (hasVal_zero (hn' x (Or.inl hx))).le hy' hy'.nonneg b
    · rcases hxy.eq_or_lt with rfl | h0
      · exact he.le he le_rfl b
      · rcases (hy.trans hm.2).eq_or_lt with rfl | h3
        · have h4 : m = 1 := le_antisymm hm.2 hy
          refine he.le he' ?_ b
          have h5 : e ≤ (f (1 / 2) : ℝ) := by
            refine h1 _ ?_
            filter_upwards [Ioo_mem_nhdsGT (show (0 : ℝ) < 1 / 2 by norm_num)] with z hz
            exact (hp.1 ⟨⟨hz.1, by linarith [hz.2]⟩, by rw [h4]; exact (by linarith [hz.2] : z ≤ 1)⟩
              ⟨by constructor <;> norm_num, by rw [h4]; exact (by norm_num : (1 / 2 : ℝ) ≤ 1)⟩ hz.2).le
          refine h5.trans (h2' _ ?_)
          filter_upwards [Ioo_mem_nhdsLT (show (1 / 2 : ℝ) < 1 by norm_num)] with z hz
          exact (hp.1 ⟨by constructor <;> norm_num, by rw [h4]; exact (by norm_num : (1 / 2 : ℝ) ≤ 1)⟩
            ⟨⟨by linarith [hz.1], hz.2⟩, by rw [h4]; exact hz.2.le⟩ hz.1).le
        · refine he.le (hasVal_dens hd ⟨h0, h3⟩) (h1 _ ?_) b
          filter_upwards [Ioo_mem_nhdsGT h0] with z hz
          exact (hp.1 ⟨⟨hz.1, hz.2.trans h3⟩, hz.2.le.trans hy⟩ ⟨⟨h0, h3⟩, hy⟩ hz.2).le
    · rcases (hy.trans hm.2).eq_or_lt with rfl | h3
      · have h4 : m = 1 := le_antisymm hm.2 hy
        rcases hxy.eq_or_lt with rfl | h6
        · exact he'.le he' le_rfl b
        · refine (hasVal_dens hd ⟨hx, h6⟩).le he' (h2' _ ?_) b
          filter_upwards [Ioo_mem_nhdsLT h6] with z hz
          exact (hp.1 ⟨⟨hx, h6⟩, by rw [h4]; exact h6.le⟩ ⟨⟨hx.trans hz.1, hz.2⟩, by rw [h4]; exact hz.2.le⟩ hz.1).le
      · obtain ⟨hx', hy''⟩ := hI hx hxy h3
        refine (hasVal_dens hd hx').le (hasVal_dens hd hy'') ?_ b
        exact_mod_cast hp.1.monotoneOn ⟨hx', hxy.trans hy⟩ ⟨hy'', hy⟩ hxy
  · obtain ⟨ex, hx'⟩ := hall x
    rcases lt_trichotomy 1 y with h0 | rfl | h0
    · exact (hasVal_zero (hn' y (Or.inr h0))).le hx' hx'.nonneg b
    · rcases hxy.eq_or_lt with rfl | h6
      · exact he'.le he' le_rfl b
      · rcases (hm.1.trans hx).eq_or_lt with rfl | h3
        · have h4 : m = 0 := le_antisymm hx hm.1
          refine he'.le he ?_ b
          have h5 : e' ≤ (f (1 / 2) : ℝ) := by
            refine h1' _ ?_
            filter_upwards [Ioo_mem_nhdsLT (show (1 / 2 : ℝ) < 1 by norm_num)] with z hz
            exact (hp.2 ⟨by constructor <;> norm_num, by rw [h4]; exact (by norm_num : (0 : ℝ) ≤ 1 / 2)⟩
              ⟨⟨by linarith [hz.1], hz.2⟩, by rw [h4]; exact (by linarith [hz.1] : 0 ≤ z)⟩ hz.1).le
          refine h5.trans (h2 _ ?_)
          filter_upwards [Ioo_mem_nhdsGT (show (0 : ℝ) < 1 / 2 by norm_num)] with z hz
          exact (hp.2 ⟨⟨hz.1, by linarith [hz.2]⟩, by rw [h4]; exact hz.1.le⟩
            ⟨by constructor <;> norm_num, by rw [h4]; exact (by norm_num : (0 : ℝ) ≤ 1 / 2)⟩ hz.2).le
        · refine he'.le (hasVal_dens hd ⟨h3, h6⟩) (h1' _ ?_) b
          filter_upwards [Ioo_mem_nhdsLT h6] with z hz
          exact (hp.2 ⟨⟨h3, h6⟩, hx⟩ ⟨⟨h3.trans hz.1, hz.2⟩, hx.trans hz.1.le⟩ hz.1).le
    · rcases (hm.1.trans hx).eq_or_lt with rfl | h3
      · have h4 : m = 0 := le_antisymm hx hm.1
        rcases hxy.eq_or_lt with rfl | h6
        · exact he.le he le_rfl b
        · refine (hasVal_dens hd ⟨h6, h0⟩).le he (h2 _ ?_) b
          filter_upwards [Ioo_mem_nhdsGT h6] with z hz
          exact (hp.2 ⟨⟨hz.1, hz.2.trans h0⟩, by rw [h4]; exact hz.1.le⟩ ⟨⟨h6, h0⟩, by rw [h4]; exact h6.le⟩ hz.2).le
      · obtain ⟨hx'', hy''⟩ := hI h3 hxy h0
        refine (hasVal_dens hd hy'').le (hasVal_dens hd hx'') ?_ b
        exact_mod_cast hp.2.antitoneOn ⟨hx'', hx⟩ ⟨hy'', hx.trans hxy⟩ hxy
  · obtain ⟨e, h⟩ := hall x
    cases h with
    | real h => rw [h.2.1]; simpa using h.1
    | pole h => rw [h.1]; simp

theorem C54_dbeta {a b : ℝ} (ha : 1 ≤ a) (hb : 1 ≤ b) (h : 2 < a + b) :
    Unimodal ((a - 1) / (a + b - 2)) fun x => dbeta x (fin a) (fin b) := by
  have ha0 : 0 < a := by linarith
  have hb0 : 0 < b := by linarith
  refine unimodal_unit ⟨div_nonneg (by linarith) (by linarith), ?_⟩ (C08_dbeta ha0 hb0) (Mode.beta ha hb h)
    (C08_dbeta_zero ha0 hb0) (C08_dbeta_one ha0 hb0) fun _ hx => C05_dbeta hx a b ha0.le hb0.le
  rw [div_le_one (by linarith)]; linarith
example : Unimodal ((1 - 1) / (1 + 4 - 2)) fun x => dbeta x (fin 1) (fin 4) :=
  C54_dbeta (a := 1) (b := 4) (ha := by meets) (hb := by meets) (h := by meets)

theorem C54_dbeta_left {a b : ℝ} (ha : 0 < a) (ha1 : a ≤ 1) (hb : 1 ≤ b) (h : a < b) :
    Unimodal 0 fun x => dbeta x (fin a) (fin b) := by
  have hb0 : 0 < b := by linarith
  exact unimodal_unit ⟨le_rfl, zero_le_one⟩ (C08_dbeta ha hb0) (Mode.beta_left ha ha1 hb h)
    (C08_dbeta_zero ha hb0) (C08_dbeta_one ha hb0) fun _ hx => C05_dbeta hx a b ha.le hb0.le
example : Unimodal 0 fun x => dbeta x (fin 1) (fin 4) :=
  C54_dbeta_left (a := 1) (b := 4) (ha := by meets) (ha1 := by meets) (hb := by meets) (h := by meets)

theorem C54_dbeta_right {a b : ℝ} (hb0 : 0 < b) (hb : b ≤ 1) (ha : 1 ≤ a) (h : b < a) :
    Unimodal 1 fun x => dbeta x (fin a) (fin b) := by
  have ha0 : 0 < a := by linarith
  exact unimodal_unit ⟨zero_le_one, le_rfl⟩ (C08_dbeta ha0 hb0) (Mode.beta_right hb0 hb ha h)
    (C08_dbeta_zero ha0 hb0) (C08_dbeta_one ha0 hb0) fun _ hx => C05_dbeta hx a b ha0.le hb0.le
example : dbeta (fin (1 / 4)) (fin 3) (fin (1 / 2)) true ≤ dbeta (fin 1) (fin 3) (fin (1 / 2)) true :=
  (C54_dbeta_right (a := 3) (b := 1 / 2) (by meets) (by meets) (by meets) (by meets)).1 (fin (1 / 4)) (fin 1)
    (by simp only [fin_le_fin]; norm_num) (by meets) true

/-- Both parameters 1: flat, every point of the unit interval is a mode. -/
theorem C54_dbeta_flat {m : ℝ} (hm : m ∈ Set.Icc (0 : ℝ) 1) : Unimodal m fun x => dbeta x (fin 1) (fin 1) := by
  have e : (fun x => dbeta x (fin 1) (fin 1)) = fun x => dunif x (fin 0) (fin 1) := by
    funext x b
    cases x with
    | nan => simp [dbeta, beta_ok', dunif, unif_ok']
    | ninf => simp [dbeta, beta_ok', beta_ok, dunif, unif_ok', unif_ok]
    | pinf => simp [dbeta, beta_ok', beta_ok, dunif, unif_ok', unif_ok]
    | fin x =>
      by_cases hx : x ∈ Set.Ioo (0 : ℝ) 1
      · obtain ⟨_, h2, h3⟩ := C08_dbeta one_pos one_pos x hx
        obtain ⟨_, k2, k3⟩ := C08_dunif zero_lt_one x ⟨hx.1.le, hx.2.le⟩
        have e1 : betaPdf 1 1 x = 1 := by
          rw [betaPdf, if_pos ⟨hx.1, hx.2⟩]; simp [Spec.beta, one_add_one_eq_two]
        have e2 : unifPdf 0 1 x = 1 := by
          simp [unifPdf, hx.1.le, hx.2.le]
        cases b
        · exact h2.trans (.trans (by rw [e1, e2]) k2.symm)
        · exact h3.trans (.trans (by rw [e1, e2]) k3.symm)
      · rcases lt_trichotomy x 0 with h0 | rfl | h0
        · simp [dbeta, beta_ok', beta_ok, dunif, unif_ok', unif_ok, h0]
        · cases b <;> simp [dbeta, beta_ok', beta_ok, dunif, unif_ok', unif_ok, dunif_log_check, log_if, fin_div_fin, ideal]
        · rcases lt_trichotomy x 1 with h1 | rfl | h1
          · exact absurd ⟨h0, h1⟩ hx
          · cases b <;> simp [dbeta, beta_ok', beta_ok, dunif, unif_ok', unif_ok, dunif_log_check, log_if, fin_div_fin, ideal]
          · simp [dbeta, beta_ok', beta_ok, dunif, unif_ok', unif_ok, h1]
  rw [e]
  exact C54_dunif zero_lt_one hm
example : dbeta (fin 0) (fin 1) (fin 1) true ≤ dbeta (fin 1) (fin 1) (fin 1) true :=
  (C54_dbeta_flat (m := 1) (by constructor <;> norm_num)).1 (fin 0) (fin 1) (by meets) (by meets) true

/-! ### Integers -/

theorem unimodalZ_of {m : ℤ} {d : ℤ → Bool → Fl} {g : ℤ → ℝ} (hd : ∀ x, IsValue (d x) (g x))
    (h1 : ∀ k ≤ m, g (k - 1) ≤ g k) (h2 : ∀ k, m < k → g k ≤ g (k - 1)) : UnimodalZ m d :=
  ⟨fun j k hjk hk => (HasVal.real (hd j)).le (.real (hd k)) (by exact_mod_cast Mode.int_rise h1 hjk hk),
    fun j k hj hjk => (HasVal.real (hd k)).le (.real (hd j)) (by exact_mod_cast Mode.int_fall h2 hj hjk)⟩

theorem C54_dpois {rate : ℝ} (h : 0 ≤ rate) : UnimodalZ ⌊rate⌋ fun x => dpois x (fin rate) :=
  unimodalZ_of (C08_dpois h) (fun _ => Mode.pois_rise h) fun _ => Mode.pois_fall h
example : dpois 6 (fin 5) true ≤ dpois 5 (fin 5) true :=
  (C54_dpois (rate := 5) (by meets)).2 5 6 (by norm_num) (by norm_num) true

theorem C54_dbinom (n : ℕ) {p : ℝ} (h0 : 0 ≤ p) (h1 : p ≤ 1) :
    UnimodalZ (min n ⌊(n + 1) * p⌋) fun x => dbinom x n (fin p) :=
  unimodalZ_of (C08_dbinom n h0 h1) (fun _ => Mode.binom_rise n h0 h1) fun _ => Mode.binom_fall n h0 h1
example : dbinom 3 10 (fin (1 / 2)) true ≤ dbinom 5 10 (fin (1 / 2)) true :=
  (C54_dbinom 10 (p := 1 / 2) (by norm_num) (by norm_num)).1 3 5 (by norm_num)
    (le_min (by norm_num) (Int.le_floor.2 (by norm_num))) true

theorem C54_dbern {p : ℝ} (h0 : 0 ≤ p) (h1 : p ≤ 1) :
    UnimodalZ (if 1 / 2 ≤ p then 1 else 0) fun x => dbern x (fin p) := by
  have hb := C08_dbern h0 h1
  refine unimodalZ_of hb (fun k hk => ?_) fun k hk => ?_
  · unfold bernPmf
    split_ifs at * <;> first | omega | linarith
  · unfold bernPmf
    split_ifs at * <;> first | omega | linarith
example : dbern 0 (fin (3 / 4)) true ≤ dbern 1 (fin (3 / 4)) true :=
  (C54_dbern (p := 3 / 4) (by norm_num) (by norm_num)).1 0 1 (by norm_num) (by norm_num) true

end Stats

import Verif.Props.C43G
import Verif.Lemmas.Meets

/-! # C43 for the F and Weibull distribution functions and the beta, uniform and Poisson families -/

set_option linter.unusedSectionVars false
open Classical
open Filter Topology
namespace Stats
open Fl Spec
variable [Lib] [Ideal]

/-! ### F -/

/-- Evaluation at `+inf`. Missing: `df1 < 2` or `df2 < 1`, where the code returns NaN. -/
theorem C43_df_x_partial {d1 d2 : ℝ} (h1 : 2 ≤ d1) (h2 : 1 ≤ d2) : LimTop2 (fun x => df x (fin d1) (fin d2)) := by
  have he : Lib.eps ≤ 1 := Lib.eps_le.trans (by norm_num)
  have e1 : Lib.eps ≤ d1 := by linarith
  have e2 : Lib.eps ≤ d2 := by linarith
  refine limTop2 (fun _ => C07_df _ _ _) ((eventually_gt_atTop 0).mono fun x hx => (C08_df e1 e2).ev hx)
    (Lim.f_x (by linarith) (by linarith)) ?_ le_rfl
  simp only [df, f_ok', f_ok, eps, df_limit_vals_xinf, ideal]
  simp [not_lt.2 e1, not_lt.2 e2, h1, h2]
example : LimTop2 (fun x => df x (fin 3) (fin 5)) :=
  C43_df_x_partial (d1 := 3) (d2 := 5) (h1 := by meets) (h2 := by meets)

theorem C43_df_x_violated {d1 d2 : ℝ} (h1 : Lib.eps ≤ d1) (h2 : Lib.eps ≤ d2) (h : d1 < 2 ∨ d2 < 1) :
    Approaches atTop (fun x => df (fin x) (fin d1) (fin d2) false) (fin 0) ∧ df pinf (fin d1) (fin d2) false = nan := by
  refine ⟨⟨_, (eventually_gt_atTop 0).mono fun x hx => ((C08_df h1 h2).ev hx).2,
    Lim.f_x (Lib.eps_pos.trans_le h1) (Lib.eps_pos.trans_le h2)⟩, ?_⟩
  have : ¬ (2 ≤ d1 ∧ 1 ≤ d2) := by
    rintro ⟨a, b⟩
    rcases h with h | h <;> linarith
  simp only [df, f_ok', f_ok, eps, df_limit_vals_xinf, ideal]
  simp [not_lt.2 h1, not_lt.2 h2]
  exact fun a => not_le.1 fun b => this ⟨a, b⟩
example : Approaches atTop (fun x => df (fin x) (fin 1) (fin 5) false) (fin 0) ∧ df pinf (fin 1) (fin 5) false = nan :=
  C43_df_x_violated (d1 := 1) (d2 := 5) (h1 := by meets) (h2 := by meets) (h := by meets)

/-- `x * df1` below `eps` is cut to zero by the chi-squared distribution function. -/
theorem C43_pf_df2 {x d1 : ℝ} (hx : Lib.eps ≤ x) (h1 : Lib.eps ≤ d1) (hx1 : Lib.eps ≤ x * d1) :
    LimTop2 (fun d2 => pf (fin x) (fin d1) d2) := by
  have p0 := Lib.eps_pos.trans_le hx
  have p1 := Lib.eps_pos.trans_le h1
  have ht := Lim.fCdf_df2 p1 x
  refine limTop2 (fun _ => C07_pf_partial _ _ _ (Or.inl (by simp)))
    ((eventually_ge_atTop Lib.eps).mono fun d2 h2 =>
      ⟨(isCdf_f p1 (Lib.eps_pos.trans_le h2)).nonneg' x, pf_fin h1 h2 x (Or.inl hx)⟩) ht ?_ ?_
  · have := pchisq_fin p1 (x * d1) (Or.inl hx1)
    rw [if_pos (by positivity)] at this
    simp only [pf, f_ok', f_ok, eps, pf_limit_vals_dof, ideal, this]
    simp [not_lt.2 hx, not_lt.2 h1, p0]
    congr 1
    field_simp
  · rw [if_pos p0]
    exact gammaP_nonneg (by positivity) (by positivity)
example : LimTop2 (fun d2 => pf (fin (1 / 2)) (fin 3) d2) :=
  C43_pf_df2 (x := 1 / 2) (d1 := 3) (hx := by meets) (h1 := by meets) (hx1 := by meets)

/-- Plain form; in log form the code returns `1 - log(..)` here (C07). `df2 / x` below `eps` is cut to zero. -/
theorem C43_pf_df1_partial {x d2 : ℝ} (hx : Lib.eps ≤ x) (h2 : Lib.eps ≤ d2) (hx2 : Lib.eps ≤ d2 / x) :
    LimTop (fun d1 => pf (fin x) d1 (fin d2) false) := by
  have p0 := Lib.eps_pos.trans_le hx
  have p2 := Lib.eps_pos.trans_le h2
  have e : pf (fin x) pinf (fin d2) false = fin (1 - gammaP (d2 / 2) (d2 / 2 / x)) := by
    have := pchisq_fin p2 (d2 / x) (Or.inl hx2)
    rw [if_pos (by positivity), show d2 / x / 2 = d2 / 2 / x by ring] at this
    simp only [pf, f_ok', f_ok, eps, pf_limit_vals_dof, ideal, ifin_div _ p0.ne', this]
    simp [not_lt.2 hx, not_lt.2 h2]
  have ht := Lim.fCdf_df1 p2 x
  rw [if_pos p0] at ht
  rw [LimTop, e]
  exact ⟨_, (eventually_ge_atTop Lib.eps).mono fun d1 h1 => pf_fin h1 h2 x (Or.inl hx), ht⟩
example : LimTop (fun d1 => pf (fin (1 / 2)) d1 (fin 5) false) :=
  C43_pf_df1_partial (x := 1 / 2) (d2 := 5) (hx := by meets) (h2 := by meets) (hx2 := by meets)

/-- The log form of the same value is at least 1. -/
theorem C43_pf_df1_violated : ∃ x d2 : ℝ, Lib.eps ≤ x ∧ Lib.eps ≤ d2 ∧ ¬ LimTop (fun d1 => pf (fin x) d1 (fin d2) true) := by
  have he : Lib.eps ≤ 1 := Lib.eps_le.trans (by norm_num)
  have e0 := Lib.eps_pos
  refine ⟨1, 1, he, he, fun h => ?_⟩
  have hP := pchisq_fin one_pos 1 (Or.inl he)
  rw [if_pos one_pos] at hP
  set P := gammaP (1 / 2 : ℝ) (1 / 2) with hPd
  have hP0 : 0 < P := by
    have : 0 < (1 / 2 : ℝ) := by norm_num
    have h3 := strictMonoOn_gammaP this (show (0 : ℝ) ∈ Set.Ici 0 by simp) (show (1 / 2 : ℝ) ∈ Set.Ici 0 by simp) this
    exact (gammaP_nonneg this le_rfl).trans_lt h3
  have hP1 : P < 1 := gammaP_lt_one (by norm_num) (by norm_num)
  have e : pf (fin 1) pinf (fin 1) true = fin (1 - Real.log P) := by
    have h1 := C07_pchisq (fin 1) (fin 1)
    rw [LogForm, hP, ilog hP0] at h1
    simp only [pf, f_ok', f_ok, eps, pf_limit_vals_dof, ideal, ifin_div _ (one_ne_zero (α := ℝ)), div_one, h1]
    simp [not_lt.2 he]
  simp only [LimTop, e] at h
  obtain ⟨g, hg, ht⟩ := h
  have : ∀ᶠ d1 in atTop, g d1 ≤ 0 := by
    filter_upwards [hg, eventually_ge_atTop Lib.eps] with d1 h2 h1
    rw [C07_pf_partial _ _ _ (Or.inl (by simp)), pf_fin h1 he 1 (Or.inl he)] at h2
    have hc := (isCdf_f (Lib.eps_pos.trans_le h1) one_pos).le_one 1
    have hn := (isCdf_f (Lib.eps_pos.trans_le h1) one_pos).nonneg' 1
    rcases hn.eq_or_lt with h0 | h0
    · rw [← h0] at h2; simp at h2
    · rw [ilog h0] at h2
      rw [← Fl.fin.inj h2]
      exact Real.log_nonpos h0.le hc
  have := le_of_tendsto ht this
  have := Real.log_neg hP0 hP1
  linarith

/-! ### Weibull -/

theorem C43_dweibull_x {shape scale : ℝ} (hk : Lib.eps ≤ shape) (hs : Lib.eps ≤ scale) :
    LimTop2 (fun x => dweibull x (fin shape) (fin scale)) := by
  refine limTop2 (fun _ => C07_dweibull _ _ _)
    ((eventually_gt_atTop 0).mono fun x hx => (C08_dweibull hk hs).ev hx)
    (Lim.weibull_x (Lib.eps_pos.trans_le hk) (Lib.eps_pos.trans_le hs)) ?_ le_rfl
  simp [dweibull, weibull_ok', weibull_ok, eps, not_lt.2 hk, not_lt.2 hs]
example : LimTop2 (fun x => dweibull x (fin 3) (fin 2)) :=
  C43_dweibull_x (shape := 3) (scale := 2) (hk := by meets) (hs := by meets)

/-- Missing: shapes up to 1 (next theorem). -/
theorem C43_dweibull_scale_partial {x shape : ℝ} (hx : 0 < x) (hk : 1 < shape) :
    LimTop2 (fun s => dweibull (fin x) (fin shape) s) := by
  have he : Lib.eps ≤ shape := Lib.eps_le.trans (by linarith)
  refine limTop2 (fun _ => C07_dweibull _ _ _)
    ((eventually_ge_atTop Lib.eps).mono fun s hs => (C08_dweibull he hs).ev hx)
    (Lim.weibull_scale (by linarith)) ?_ le_rfl
  have h1 : 0 < shape - 1 := by linarith
  have h2 : 0 < shape := by linarith
  simp [dweibull, weibull_ok', weibull_ok, eps, not_lt.2 he, dweibull_log_compute, not_lt.2 hx.le, hx.ne', pow, h1, h2,
    h1.ne', h2.ne', fin_mul_ninf, ideal]
example : LimTop2 (fun s => dweibull (fin (1 / 2)) (fin 3) s) :=
  C43_dweibull_scale_partial (x := 1 / 2) (shape := 3) (hx := by meets) (hk := by meets)

theorem C43_dweibull_scale_violated {x shape : ℝ} (hx : 0 < x) (he : Lib.eps ≤ shape) (hk : shape ≤ 1) :
    Approaches atTop (fun s => dweibull (fin x) (fin shape) (fin s) false) (fin 0) ∧
      dweibull (fin x) (fin shape) pinf false = nan := by
  have h2 := Lib.eps_pos.trans_le he
  refine ⟨⟨_, (eventually_ge_atTop Lib.eps).mono fun s hs => ((C08_dweibull he hs).ev hx).2, Lim.weibull_scale h2⟩, ?_⟩
  rcases hk.eq_or_lt with rfl | hk
  · simp [dweibull, weibull_ok', weibull_ok, eps, not_lt.2 he, dweibull_log_compute, not_lt.2 hx.le, hx.ne', ideal,
      fin_mul_ninf]
  · have h1 : shape - 1 < 0 := by linarith
    simp [dweibull, weibull_ok', weibull_ok, eps, not_lt.2 he, dweibull_log_compute, not_lt.2 hx.le, hx.ne', ideal,
      h1.ne, not_lt.2 h1.le, fin_mul_ninf, pow, h2, h2.ne']
example : Approaches atTop (fun s => dweibull (fin (1 / 2)) (fin (1 / 2)) (fin s) false) (fin 0) ∧
      dweibull (fin (1 / 2)) (fin (1 / 2)) pinf false = nan :=
  C43_dweibull_scale_violated (x := 1 / 2) (shape := 1 / 2) (hx := by meets) (he := by meets) (hk := by meets)

/-- At infinite shape the density is NaN, also to the left of the scale where it tends to 0. -/
theorem C43_dweibull_shape_violated {x scale : ℝ} (hx : 0 < x) (hs : Lib.eps ≤ scale) (h : x < scale) :
    Approaches atTop (fun k => dweibull (fin x) (fin k) (fin scale) false) (fin 0) ∧
      dweibull (fin x) pinf (fin scale) false = nan := by
  have p := Lib.eps_pos.trans_le hs
  have hr : x / scale < 1 := (div_lt_one p).2 h
  have hr0 : 0 < x / scale := by positivity
  refine ⟨⟨_, (eventually_ge_atTop Lib.eps).mono fun k hk => ((C08_dweibull hk hs).ev hx).2, ?_⟩, ?_⟩
  · have hl : 0 < -Real.log (x / scale) := by linarith [Real.log_neg hr0 hr]
    have h1 := (Lim.exp_kills 1 hl).const_mul (1 / scale * (x / scale)⁻¹)
    rw [mul_zero] at h1
    refine squeeze_zero' ?_ ?_ h1
    · filter_upwards [eventually_gt_atTop 0] with k hk
      unfold weibullPdf; split_ifs; positivity
    · filter_upwards [eventually_gt_atTop 0] with k hk
      rw [weibullPdf, if_pos hx]
      have h2 : Real.exp (-(x / scale) ^ k) ≤ 1 := Real.exp_le_one_iff.2 (by
        have : 0 ≤ (x / scale) ^ k := by positivity
        linarith)
      refine (mul_le_of_le_one_right (by positivity) h2).trans (le_of_eq ?_)
      rw [Real.rpow_sub hr0, Real.rpow_one, Real.rpow_one, Real.rpow_def_of_pos hr0]
      rw [show -(-Real.log (x / scale)) * k = Real.log (x / scale) * k by ring]
      field_simp
  · have hl := Real.log_neg hr0 hr
    simp [dweibull, weibull_ok', weibull_ok, eps, not_lt.2 hs, dweibull_log_compute, not_lt.2 hx.le, hx.ne', ideal,
      ifin_div _ p.ne', ilog hr0, hl.ne, not_lt.2 hl.le, p.le, pinf_div_fin, pinf_mul_fin]
example : Approaches atTop (fun k => dweibull (fin (1 / 2)) (fin k) (fin 2) false) (fin 0) ∧
      dweibull (fin (1 / 2)) pinf (fin 2) false = nan :=
  C43_dweibull_shape_violated (x := 1 / 2) (scale := 2) (hx := by meets) (hs := by meets) (h := by meets)

theorem C43_pweibull_scale {x shape : ℝ} (hx : Lib.eps ≤ x) (hk : Lib.eps ≤ shape) :
    LimTop2 (fun s => pweibull (fin x) (fin shape) s) := by
  have p0 := Lib.eps_pos.trans_le hx
  refine limTop2 (h := fun s => 1 - Real.exp (-(x / s) ^ shape)) (fun _ => C07_pweibull _ _ _)
    ((eventually_ge_atTop Lib.eps).mono fun s hs => ⟨?_, ?_⟩)
    (Lim.weibullCdf_scale (Lib.eps_pos.trans_le hk)) ?_ le_rfl
  · have : Real.exp (-(x / s) ^ shape) ≤ 1 := Real.exp_le_one_iff.2 (by
      have := Lib.eps_pos.trans_le hs
      have : 0 ≤ (x / s) ^ shape := by positivity
      linarith)
    linarith
  · rw [pweibull_fin hk hs x (Or.inl hx), if_pos p0]
  · simp [pweibull, weibull_ok', weibull_ok, eps, pweibull_limit_vals, not_lt.2 hx, not_lt.2 hk]
example : LimTop2 (fun s => pweibull (fin (1 / 2)) (fin 3) s) :=
  C43_pweibull_scale (x := 1 / 2) (shape := 3) (hx := by meets) (hk := by meets)

/-- including the point `x = scale`, where the limit is `1 - 1/e` -/
theorem C43_pweibull_shape {x scale : ℝ} (hx : Lib.eps ≤ x) (hs : Lib.eps ≤ scale) :
    LimTop2 (fun k => pweibull (fin x) k (fin scale)) := by
  have p0 := Lib.eps_pos.trans_le hx
  have p1 := Lib.eps_pos.trans_le hs
  have he : Real.exp (-1) ≤ 1 := Real.exp_le_one_iff.2 (by norm_num)
  refine limTop2 (h := fun k => 1 - Real.exp (-(x / scale) ^ k)) (fun _ => C07_pweibull _ _ _)
    ((eventually_ge_atTop Lib.eps).mono fun k hk => ⟨?_, ?_⟩)
    (Lim.weibullCdf_shape p0 p1) ?_ ?_
  · have : Real.exp (-(x / scale) ^ k) ≤ 1 := Real.exp_le_one_iff.2 (by
      have : 0 ≤ (x / scale) ^ k := by positivity
      linarith)
    linarith
  · rw [pweibull_fin hk hs x (Or.inl hx), if_pos p0]
  · simp only [pweibull, weibull_ok', weibull_ok, eps, pweibull_limit_vals, ideal, ifin_div _ p1.ne']
    have h2 : ¬ x < Lib.eps := not_lt.2 hx
    split_ifs <;> simp_all <;> (exfalso; linarith)
  · split_ifs <;> linarith
example : LimTop2 (fun k => pweibull (fin (1 / 2)) k (fin 2)) :=
  C43_pweibull_shape (x := 1 / 2) (scale := 2) (hx := by meets) (hs := by meets)

/-! ### Beta -/

theorem C43_dbeta_a {x b : ℝ} (hx : x ∈ Set.Ioo (0 : ℝ) 1) (hb : 0 < b) : LimTop2 (fun a => dbeta (fin x) a (fin b)) := by
  refine limTop2 (fun _ => C07_dbeta _ _ _) ((eventually_gt_atTop 0).mono fun a ha => (C08_dbeta ha hb).ev hx)
    (Lim.beta_a hb hx) ?_ le_rfl
  obtain ⟨h0, h1⟩ := hx
  simp [dbeta, beta_ok', beta_ok, dbeta_limit_vals, not_lt.2 h0.le, not_lt.2 h1.le, h1.ne, not_lt.2 hb.le, hb.ne']
example : LimTop2 (fun a => dbeta (fin (1 / 2)) a (fin 4)) :=
  C43_dbeta_a (x := 1 / 2) (b := 4) (hx := by meets) (hb := by meets)

theorem C43_dbeta_b {x a : ℝ} (hx : x ∈ Set.Ioo (0 : ℝ) 1) (ha : 0 < a) : LimTop2 (fun b => dbeta (fin x) (fin a) b) := by
  refine limTop2 (fun _ => C07_dbeta _ _ _) ((eventually_gt_atTop 0).mono fun b hb => (C08_dbeta ha hb).ev hx)
    (Lim.beta_b ha hx) ?_ le_rfl
  obtain ⟨h0, h1⟩ := hx
  simp [dbeta, beta_ok', beta_ok, dbeta_limit_vals, not_lt.2 h0.le, not_lt.2 h1.le, h0.ne', not_lt.2 ha.le, ha.ne']
example : LimTop2 (fun b => dbeta (fin (1 / 2)) (fin 1) b) :=
  C43_dbeta_b (x := 1 / 2) (a := 1) (hx := by meets) (ha := by meets)

/-- every `x`, the atom at 1 included -/
theorem C43_pbeta_a (x : ℝ) {b : ℝ} (hb : 0 < b) : LimTop2 (fun a => pbeta (fin x) a (fin b)) := by
  refine limTop2 (fun _ => C07_pbeta _ _ _)
    ((eventually_gt_atTop 0).mono fun a ha => ⟨(isCdf_beta ha hb).nonneg' x, pbeta_fin ha hb x⟩)
    (Lim.betaCdf_a hb) ?_ (by split_ifs <;> norm_num)
  by_cases h0 : x ≤ 0
  · simp [pbeta, beta_ok', beta_ok, not_lt.2 hb.le, h0, show x < 1 by linarith]
  by_cases h1 : 1 ≤ x
  · simp [pbeta, beta_ok', beta_ok, not_lt.2 hb.le, h0, h1, not_lt.2 h1]
  · simp [pbeta, beta_ok', beta_ok, not_lt.2 hb.le, h0, h1, not_le.1 h1, pbeta_limit_vals, hb.ne']
example : LimTop2 (fun a => pbeta (fin (1 / 2)) a (fin 4)) := C43_pbeta_a (x := 1 / 2) (b := 4) (hb := by meets)

/-- The limit is the point mass at 0; its atom is left out (there the code keeps the value 0). -/
theorem C43_pbeta_b {x : ℝ} (hx : x ≠ 0) {a : ℝ} (ha : 0 < a) : LimTop2 (fun b => pbeta (fin x) (fin a) b) := by
  refine limTop2 (fun _ => C07_pbeta _ _ _)
    ((eventually_gt_atTop 0).mono fun b hb => ⟨(isCdf_beta ha hb).nonneg' x, pbeta_fin ha hb x⟩)
    (Lim.betaCdf_b ha hx) ?_ (by split_ifs <;> norm_num)
  by_cases h0 : x ≤ 0
  · simp [pbeta, beta_ok', beta_ok, not_lt.2 ha.le, h0, lt_of_le_of_ne h0 hx]
  by_cases h1 : 1 ≤ x
  · simp [pbeta, beta_ok', beta_ok, not_lt.2 ha.le, h0, h1, not_lt.2 (not_le.1 h0).le]
  · simp [pbeta, beta_ok', beta_ok, not_lt.2 ha.le, h0, h1, not_lt.2 (not_le.1 h0).le, pbeta_limit_vals, ha.ne']
example : LimTop2 (fun b => pbeta (fin (1 / 2)) (fin 1) b) :=
  C43_pbeta_b (x := 1 / 2) (hx := by meets) (a := 1) (ha := by meets)

/-! ### Uniform -/

theorem unifPdf_b {x a : ℝ} : Tendsto (fun b => unifPdf a b x) atTop (𝓝 0) := by
  have h : Tendsto (fun b : ℝ => 1 / (b - a)) atTop (𝓝 0) :=
    tendsto_const_nhds.div_atTop (tendsto_atTop_add_const_right _ (-a) tendsto_id)
  refine squeeze_zero' ?_ ?_ h <;>
  · filter_upwards [eventually_gt_atTop a] with b hb
    have : 0 < b - a := by linarith
    unfold unifPdf; split_ifs <;> first | exact le_rfl | positivity

/-- Missing: the log form (C07: 0 instead of `-inf`). -/
theorem C43_dunif_b_partial {x a : ℝ} (hx : a ≤ x) : LimTop (fun b => dunif (fin x) (fin a) b false) := by
  have e : dunif (fin x) (fin a) pinf false = fin 0 := by simp [dunif, unif_ok', unif_ok]
  rw [LimTop, e]
  refine ⟨_, ?_, unifPdf_b (a := a) (x := x)⟩
  filter_upwards [eventually_gt_atTop a, eventually_ge_atTop x] with b hb hbx
  exact ((C08_dunif hb).ev ⟨hx, hbx⟩).2
example : LimTop (fun b => dunif (fin 7) (fin 1) b false) := C43_dunif_b_partial (x := 7) (a := 1) (hx := by meets)

theorem C43_dunif_b_violated {x a : ℝ} (hx : a ≤ x) :
    Approaches atTop (fun b => dunif (fin x) (fin a) (fin b) true) ninf ∧ dunif (fin x) (fin a) pinf true = fin 0 := by
  refine ⟨?_, by simp [dunif, unif_ok', unif_ok]⟩
  have e : log (fin 0) = ninf := by simp
  rw [← e]
  refine approaches_log ?_ (unifPdf_b (a := a) (x := x)) le_rfl
  filter_upwards [eventually_gt_atTop a, eventually_ge_atTop x] with b hb hbx
  have := (C08_dunif hb).ev ⟨hx, hbx⟩
  refine ⟨this.1, (C07_dunif_partial _ _ _).trans ?_⟩
  rw [this.2]
example : Approaches atTop (fun b => dunif (fin 7) (fin 1) (fin b) true) ninf ∧ dunif (fin 7) (fin 1) pinf true = fin 0 :=
  C43_dunif_b_violated (x := 7) (a := 1) (hx := by meets)

theorem C43_punif_b (x a : ℝ) : LimTop2 (fun b => punif (fin x) (fin a) b) := by
  have h : Tendsto (fun b : ℝ => unifCdf a b x) atTop (𝓝 0) := by
    by_cases hx : x ≤ a
    · have : ∀ b, unifCdf a b x = 0 := fun b => by rw [unifCdf, if_pos hx]
      simp only [this]; exact tendsto_const_nhds
    · have h1 : Tendsto (fun b : ℝ => (x - a) / (b - a)) atTop (𝓝 0) :=
        tendsto_const_nhds.div_atTop (tendsto_atTop_add_const_right _ (-a) tendsto_id)
      refine h1.congr' ?_
      filter_upwards [eventually_gt_atTop x] with b hb
      simp [unifCdf, hx, not_le.2 hb]
  refine limTop2 (fun _ => C07_punif _ _ _)
    ((eventually_gt_atTop a).mono fun b hb => ⟨(isCdf_unif hb).nonneg' x, punif_fin hb x⟩) h ?_ le_rfl
  by_cases hx : x ≤ a
  · simp [punif, unif_ok', unif_ok, punif_compute, hx]
  · simp [punif, unif_ok', unif_ok, punif_compute, hx, ideal]

/-- The other end: the limit is 1, the code returns NaN. -/
theorem C43_punif_a_violated {x b : ℝ} (hx : x < b) :
    Approaches atBot (fun a => punif (fin x) (fin a) (fin b) false) (fin 1) ∧ punif (fin x) ninf (fin b) false = nan := by
  constructor
  · have h1 : Tendsto (fun a : ℝ => b - a) atBot atTop :=
      tendsto_atTop_add_const_left _ _ tendsto_neg_atBot_atTop
    have h2 : Tendsto (fun a : ℝ => 1 - (b - x) / (b - a)) atBot (𝓝 1) := by
      simpa using (tendsto_const_nhds (x := b - x)).div_atTop h1 |>.const_sub 1
    refine ⟨fun a => unifCdf a b x, ?_, h2.congr' ?_⟩
    · filter_upwards [eventually_lt_atBot b] with a ha using punif_fin ha x
    · filter_upwards [eventually_lt_atBot x] with a ha
      have : b - a ≠ 0 := by linarith
      rw [unifCdf, if_neg (not_le.2 ha), if_neg (not_le.2 hx)]
      field_simp; ring
  · simp [punif, unif_ok', unif_ok, punif_compute, not_le.2 hx, ideal]
example : Approaches atBot (fun a => punif (fin (1 / 2)) (fin a) (fin 4) false) (fin 1) ∧ punif (fin (1 / 2)) ninf (fin 4) false = nan :=
  C43_punif_a_violated (x := 1 / 2) (b := 4) (hx := by meets)

/-! ### Poisson -/

theorem C43_dpois_rate (x : ℤ) : LimTop2 (fun r => dpois x r) := by
  have h : Tendsto (fun r => poisPmf r x) atTop (𝓝 0) := by
    unfold poisPmf
    split_ifs
    · have := (Lim.exp_kills x.toNat one_pos).div_const (x.toNat.factorial : ℝ)
      rw [zero_div] at this
      refine this.congr fun r => ?_
      simp
    · exact tendsto_const_nhds
  refine limTop2 (fun _ => C07_dpois _ _)
    ((eventually_ge_atTop 0).mono fun r hr => ⟨(C08_dpois hr x).1, (C08_dpois hr x).2.1⟩) h ?_ le_rfl
  by_cases hx : x < 0 <;> simp [dpois, pois_ok, hx]

theorem C43_ppois_rate (x : ℤ) : LimTop2 (fun r => ppois x r) := by
  by_cases hx : x < 0
  · refine limTop2 (h := fun _ => 0) (fun _ => C07_ppois _ _)
      ((eventually_ge_atTop 0).mono fun r hr => ⟨le_rfl, ?_⟩) tendsto_const_nhds ?_ le_rfl <;>
    simp [ppois, pois_ok, hx]
    exact hr
  · have hp : (0 : ℝ) < ((x + 1 : ℤ) : ℝ) := by exact_mod_cast (show 0 < x + 1 by omega)
    have h : Tendsto (fun r => 1 - gammaP ((x + 1 : ℤ) : ℝ) r) atTop (𝓝 0) := by
      simpa using (tendsto_gammaP hp).const_sub 1
    refine limTop2 (fun _ => C07_ppois _ _) ((eventually_gt_atTop 10).mono fun r hr => ?_) h ?_ le_rfl
    · have h0 : 0 ≤ r := by linarith
      refine ⟨by linarith [gammaP_lt_one hp h0], ?_⟩
      simp only [ppois, pois_ok, ppois_compute, ideal, iigamma hp h0]
      simp [hx, not_lt.2 h0, hr]
    · simp [ppois, pois_ok, hx]

end Stats

import Verif.Props.C43H
import Verif.Props.C41
import Verif.Lemmas.Meets

/-! # C43 for the quantile functions, `0 < p < 1` -/

set_option linter.unusedSectionVars false
open Classical
open Filter Topology
namespace Stats
open Fl Spec
variable [Lib] [Ideal]

/-! ### Location-scale families -/

theorem quant_ls {Q : Fl → Fl → Fl → Fl} {G f : ℝ → ℝ} (hc : IsCdf (fun x => G ((x - 0) / 1)) f)
    (hq : ∀ (mu : ℝ) {s : ℝ}, 0 < s → IsInv (fun u => Q u (fin mu) (fin s)) (fun x => G ((x - mu) / s)))
    (h0 : G 0 = 1 / 2) {p : ℝ} (hp0 : 0 < p) (hp1 : p < 1) :
    ∃ z : ℝ, (1 / 2 < p → 0 < z) ∧ (p < 1 / 2 → z < 0) ∧
      ∀ mu s : ℝ, 0 < s → Q (fin p) (fin mu) (fin s) = fin (mu + s * z) := by
  obtain ⟨z, hz⟩ := hc.exists_eq hp0 hp1
  have hm := hc.mono
  simp only [sub_zero, div_one] at hz hm
  refine ⟨z, fun h => ?_, fun h => ?_, fun mu s hs => ?_⟩
  · by_contra hn
    have := hm (not_lt.1 hn)
    simp only at this
    linarith
  · by_contra hn
    have := hm (not_lt.1 hn)
    simp only at this
    linarith
  · have e : (mu + s * z - mu) / s = z := by field_simp; ring
    have := hq mu hs (mu + s * z) (by simp only [e, hz]; exact hp0) (by simp only [e, hz]; exact hp1)
    simpa only [e, hz] using this

theorem loc_lim {Q : Fl → Fl} {c : ℝ} (h : ∀ mu : ℝ, Q (fin mu) = fin (mu + c)) (ht : Q pinf = pinf)
    (hb : Q ninf = ninf) : LimTop Q ∧ LimBot Q := by
  constructor
  · rw [LimTop, ht]
    intro M
    filter_upwards [eventually_ge_atTop (M - c)] with mu hmu
    rw [h, fin_le_fin]; linarith
  · rw [LimBot, hb]
    intro M
    filter_upwards [eventually_le_atBot (M - c)] with mu hmu
    rw [h, fin_le_fin]; linarith

theorem scale_lim {Q : Fl → Fl} {mu z : ℝ} (hz : 0 < z) (h : ∀ s : ℝ, 0 < s → Q (fin s) = fin (mu + s * z)) :
    Approaches atTop (fun s => Q (fin s)) pinf := by
  intro M
  filter_upwards [eventually_gt_atTop 0, eventually_ge_atTop ((M - mu) / z)] with s h0 h1
  rw [h s h0, fin_le_fin]
  have := (div_le_iff₀ hz).1 h1
  linarith

theorem fin_of_add {T : Fl} {r : ℝ} (h : fin 0 + T = fin r) : ∃ t, T = fin t := by
  cases T with
  | fin t => exact ⟨t, rfl⟩
  | nan => simp at h
  | pinf => simp at h
  | ninf => simp at h
theorem fin_of_sub {T : Fl} {r : ℝ} (h : fin 0 - T = fin r) : ∃ t, T = fin t := by
  cases T with
  | fin t => exact ⟨t, rfl⟩
  | nan => simp at h
  | pinf => simp at h
  | ninf => simp at h

theorem Phi_at_zero : Phi 0 = 1 / 2 :=
  tendsto_nhds_unique ((hasDerivAt_Phi 0).continuousAt.tendsto) Lim.Phi_zero

theorem qnorm_loc {p sigma : ℝ} (h0 : 0 < p) (h1 : p < 1) (hs : 0 < sigma) :
    ∃ c : ℝ, (∀ mu : ℝ, qnorm (fin p) (fin mu) (fin sigma) = fin (mu + c)) ∧ qnorm (fin p) pinf (fin sigma) = pinf ∧
      qnorm (fin p) ninf (fin sigma) = ninf := by
  obtain ⟨z, -, -, hz⟩ := quant_ls (isCdf_norm 0 one_pos) qnorm_inv Phi_at_zero h0 h1
  have hk := prob_ok_fin h0.le h1.le
  have key : ∀ mu, qnorm (fin p) mu (fin sigma) = mu + SQRT2 * fin sigma * erfInv (2 * fin p - 1) ∨ mu = nan := by
    intro mu
    by_cases hn : mu = nan
    · exact Or.inr hn
    · left
      simp [qnorm, norm_ok, hk, not_lt.2 hs.le, hs.ne', h0.ne', h1.ne, qnorm_compute, hn]
  have e0 := hz 0 sigma hs
  rw [(key (fin 0)).resolve_right (by simp)] at e0
  obtain ⟨t, ht⟩ := fin_of_add e0
  refine ⟨sigma * z, fun mu => hz mu sigma hs, ?_, ?_⟩ <;>
  · rw [(key _).resolve_right (by simp), ht]; simp

theorem C43_qnorm_mu {p sigma : ℝ} (h0 : 0 < p) (h1 : p < 1) (hs : 0 < sigma) :
    LimTop (fun mu => qnorm (fin p) mu (fin sigma)) ∧ LimBot (fun mu => qnorm (fin p) mu (fin sigma)) := by
  obtain ⟨c, hc, ht, hb⟩ := qnorm_loc h0 h1 hs
  exact loc_lim hc ht hb
example : LimTop (fun mu => qnorm (fin (1 / 3)) mu (fin 2)) ∧ LimBot (fun mu => qnorm (fin (1 / 3)) mu (fin 2)) :=
  C43_qnorm_mu (p := 1 / 3) (sigma := 2) (h0 := by meets) (h1 := by meets) (hs := by meets)

/-- At infinite scale the code returns NaN although the upper quantiles tend to `+inf`. -/
theorem C43_qnorm_sigma_violated {p : ℝ} (h0 : 1 / 2 < p) (h1 : p < 1) (mu : ℝ) :
    Approaches atTop (fun s => qnorm (fin p) (fin mu) (fin s)) pinf ∧ qnorm (fin p) (fin mu) pinf = nan := by
  have hp : 0 < p := by linarith
  obtain ⟨z, hz, -, h⟩ := quant_ls (isCdf_norm 0 one_pos) qnorm_inv Phi_at_zero hp h1
  refine ⟨scale_lim (hz h0) (fun s hs => h mu s hs), ?_⟩
  simp [qnorm, norm_ok, prob_ok_fin hp.le h1.le]
example : Approaches atTop (fun s => qnorm (fin (3 / 4)) (fin 3) (fin s)) pinf ∧ qnorm (fin (3 / 4)) (fin 3) pinf = nan :=
  C43_qnorm_sigma_violated (p := 3 / 4) (h0 := by meets) (h1 := by meets) (mu := 3)

theorem C43_qcauchy_mu {p sigma : ℝ} (h0 : 0 < p) (h1 : p < 1) (hs : 0 < sigma) :
    LimTop (fun mu => qcauchy (fin p) mu (fin sigma)) ∧ LimBot (fun mu => qcauchy (fin p) mu (fin sigma)) := by
  obtain ⟨z, -, -, hz⟩ := quant_ls (G := fun z => 1 / 2 + Real.arctan z / Real.pi) (isCdf_cauchy 0 one_pos)
    qcauchy_inv (by simp) h0 h1
  have hk := prob_ok_fin h0.le h1.le
  have key : ∀ mu, qcauchy (fin p) mu (fin sigma) = mu + fin sigma * tan (PI * (fin p - half)) ∨ mu = nan := by
    intro mu
    by_cases hn : mu = nan
    · exact Or.inr hn
    · left
      simp [qcauchy, cauchy_ok, hk, not_lt.2 hs.le, hs.ne', h0.ne', h1.ne, qcauchy_compute, hn]
  have e0 := hz 0 sigma hs
  rw [(key (fin 0)).resolve_right (by simp)] at e0
  obtain ⟨t, ht⟩ := fin_of_add e0
  refine loc_lim (c := sigma * z) (fun mu => hz mu sigma hs) ?_ ?_ <;>
  · rw [(key _).resolve_right (by simp), ht]; simp
example : LimTop (fun mu => qcauchy (fin (1 / 3)) mu (fin 2)) ∧ LimBot (fun mu => qcauchy (fin (1 / 3)) mu (fin 2)) :=
  C43_qcauchy_mu (p := 1 / 3) (sigma := 2) (h0 := by meets) (h1 := by meets) (hs := by meets)

theorem C43_qcauchy_sigma_violated {p : ℝ} (h0 : 1 / 2 < p) (h1 : p < 1) (mu : ℝ) :
    Approaches atTop (fun s => qcauchy (fin p) (fin mu) (fin s)) pinf ∧ qcauchy (fin p) (fin mu) pinf = nan := by
  have hp : 0 < p := by linarith
  obtain ⟨z, hz, -, h⟩ := quant_ls (G := fun z => 1 / 2 + Real.arctan z / Real.pi) (isCdf_cauchy 0 one_pos)
    qcauchy_inv (by simp) hp h1
  refine ⟨scale_lim (hz h0) (fun s hs => h mu s hs), ?_⟩
  simp [qcauchy, cauchy_ok, prob_ok_fin hp.le h1.le]
example : Approaches atTop (fun s => qcauchy (fin (3 / 4)) (fin 3) (fin s)) pinf ∧ qcauchy (fin (3 / 4)) (fin 3) pinf = nan :=
  C43_qcauchy_sigma_violated (p := 3 / 4) (h0 := by meets) (h1 := by meets) (mu := 3)

theorem C43_qlogis_mu {p sigma : ℝ} (h0 : 0 < p) (h1 : p < 1) (hs : 0 < sigma) :
    LimTop (fun mu => qlogis (fin p) mu (fin sigma)) ∧ LimBot (fun mu => qlogis (fin p) mu (fin sigma)) := by
  obtain ⟨z, -, -, hz⟩ := quant_ls (G := fun z => 1 / (1 + Real.exp (-z))) (isCdf_logis 0 one_pos)
    qlogis_inv (by norm_num) h0 h1
  have hk := prob_ok_fin h0.le h1.le
  have key : ∀ mu, qlogis (fin p) mu (fin sigma) = mu + fin sigma * log (fin p / (1 - fin p)) ∨ mu = nan := by
    intro mu
    by_cases hn : mu = nan
    · exact Or.inr hn
    · left
      simp [qlogis, logis_ok, hk, not_lt.2 hs.le, hs.ne', h0.ne', h1.ne, qlogis_compute, hn]
  have e0 := hz 0 sigma hs
  rw [(key (fin 0)).resolve_right (by simp)] at e0
  obtain ⟨t, ht⟩ := fin_of_add e0
  refine loc_lim (c := sigma * z) (fun mu => hz mu sigma hs) ?_ ?_ <;>
  · rw [(key _).resolve_right (by simp), ht]; simp
example : LimTop (fun mu => qlogis (fin (1 / 3)) mu (fin 2)) ∧ LimBot (fun mu => qlogis (fin (1 / 3)) mu (fin 2)) :=
  C43_qlogis_mu (p := 1 / 3) (sigma := 2) (h0 := by meets) (h1 := by meets) (hs := by meets)

theorem C43_qlogis_sigma_violated {p : ℝ} (h0 : 1 / 2 < p) (h1 : p < 1) (mu : ℝ) :
    Approaches atTop (fun s => qlogis (fin p) (fin mu) (fin s)) pinf ∧ qlogis (fin p) (fin mu) pinf = nan := by
  have hp : 0 < p := by linarith
  obtain ⟨z, hz, -, h⟩ := quant_ls (G := fun z => 1 / (1 + Real.exp (-z))) (isCdf_logis 0 one_pos)
    qlogis_inv (by norm_num) hp h1
  refine ⟨scale_lim (hz h0) (fun s hs => h mu s hs), ?_⟩
  simp [qlogis, logis_ok, prob_ok_fin hp.le h1.le]
example : Approaches atTop (fun s => qlogis (fin (3 / 4)) (fin 3) (fin s)) pinf ∧ qlogis (fin (3 / 4)) (fin 3) pinf = nan :=
  C43_qlogis_sigma_violated (p := 3 / 4) (h0 := by meets) (h1 := by meets) (mu := 3)

theorem lapG_cdf : IsCdf (fun x => Lim.lapG ((x - 0) / 1)) (laplacePdf 0 1) := by
  have := isCdf_laplace 0 one_pos
  rwa [show laplaceCdf 0 1 = fun x => Lim.lapG ((x - 0) / 1) from funext fun x => Lim.laplaceCdf_eq one_pos] at this
theorem lapG_inv (mu : ℝ) {s : ℝ} (hs : 0 < s) :
    IsInv (fun u => qlaplace u (fin mu) (fin s)) (fun x => Lim.lapG ((x - mu) / s)) := by
  have := qlaplace_inv mu hs
  rwa [show laplaceCdf mu s = fun x => Lim.lapG ((x - mu) / s) from funext fun x => Lim.laplaceCdf_eq hs] at this

theorem C43_qlaplace_mu {p sigma : ℝ} (h0 : 0 < p) (h1 : p < 1) (hs : 0 < sigma) :
    LimTop (fun mu => qlaplace (fin p) mu (fin sigma)) ∧ LimBot (fun mu => qlaplace (fin p) mu (fin sigma)) := by
  obtain ⟨z, -, -, hz⟩ := quant_ls lapG_cdf lapG_inv (by simp [Lim.lapG]; norm_num) h0 h1
  have hk := prob_ok_fin h0.le h1.le
  have key : ∀ mu, qlaplace (fin p) mu (fin sigma) =
      mu - fin sigma * sgn (fin p - half) * log (1 - 2 * abs (fin p - half)) ∨ mu = nan := by
    intro mu
    by_cases hn : mu = nan
    · exact Or.inr hn
    · left
      simp [qlaplace, laplace_ok, hk, not_lt.2 hs.le, hs.ne', h0.ne', h1.ne, qlaplace_compute, hn]
  have e0 := hz 0 sigma hs
  rw [(key (fin 0)).resolve_right (by simp)] at e0
  obtain ⟨t, ht⟩ := fin_of_sub e0
  refine loc_lim (c := sigma * z) (fun mu => hz mu sigma hs) ?_ ?_ <;>
  · rw [(key _).resolve_right (by simp), ht]; simp
example : LimTop (fun mu => qlaplace (fin (1 / 3)) mu (fin 2)) ∧ LimBot (fun mu => qlaplace (fin (1 / 3)) mu (fin 2)) :=
  C43_qlaplace_mu (p := 1 / 3) (sigma := 2) (h0 := by meets) (h1 := by meets) (hs := by meets)

theorem C43_qlaplace_sigma_violated {p : ℝ} (h0 : 1 / 2 < p) (h1 : p < 1) (mu : ℝ) :
    Approaches atTop (fun s => qlaplace (fin p) (fin mu) (fin s)) pinf ∧ qlaplace (fin p) (fin mu) pinf = nan := by
  have hp : 0 < p := by linarith
  obtain ⟨z, hz, -, h⟩ := quant_ls lapG_cdf lapG_inv (by simp [Lim.lapG]; norm_num) hp h1
  refine ⟨scale_lim (hz h0) (fun s hs => h mu s hs), ?_⟩
  simp [qlaplace, laplace_ok, prob_ok_fin hp.le h1.le]
example : Approaches atTop (fun s => qlaplace (fin (3 / 4)) (fin 3) (fin s)) pinf ∧ qlaplace (fin (3 / 4)) (fin 3) pinf = nan :=
  C43_qlaplace_sigma_violated (p := 3 / 4) (h0 := by meets) (h1 := by meets) (mu := 3)

/-! ### Log-normal -/

theorem C43_qlnorm_mu {p sigma : ℝ} (h0 : 0 < p) (h1 : p < 1) (hs : 0 < sigma) :
    LimTop (fun mu => qlnorm (fin p) mu (fin sigma)) ∧ LimBot (fun mu => qlnorm (fin p) mu (fin sigma)) := by
  obtain ⟨c, hc, ht, hb⟩ := qnorm_loc h0 h1 hs
  have hk := prob_ok_fin h0.le h1.le
  have e : ∀ mu, mu ≠ nan → qlnorm (fin p) mu (fin sigma) = exp (qnorm (fin p) mu (fin sigma)) := by
    intro mu hn
    simp [qlnorm, lnorm_ok, hk, not_lt.2 hs.le, qlnorm_compute, hn]
  have hf : ∀ mu : ℝ, qlnorm (fin p) (fin mu) (fin sigma) = fin (Real.exp (mu + c)) := by
    intro mu; rw [e _ (by simp), hc mu, iexp]
  constructor
  · have : qlnorm (fin p) pinf (fin sigma) = pinf := by rw [e _ (by simp), ht]; rfl
    rw [LimTop, this]
    intro M
    have := Real.tendsto_exp_atTop.comp (tendsto_atTop_add_const_right atTop c tendsto_id)
    filter_upwards [this.eventually_ge_atTop M] with m hm
    rw [hf, fin_le_fin]; exact hm
  · have : qlnorm (fin p) ninf (fin sigma) = fin 0 := by rw [e _ (by simp), hb]; rfl
    rw [LimBot, this]
    exact ⟨_, Eventually.of_forall hf,
      Real.tendsto_exp_atBot.comp (tendsto_atBot_add_const_right atBot c tendsto_id)⟩
example : LimTop (fun mu => qlnorm (fin (1 / 3)) mu (fin 2)) ∧ LimBot (fun mu => qlnorm (fin (1 / 3)) mu (fin 2)) :=
  C43_qlnorm_mu (p := 1 / 3) (sigma := 2) (h0 := by meets) (h1 := by meets) (hs := by meets)

/-! ### Uniform, exponential, Weibull -/

theorem C43_qunif_b_violated {p : ℝ} (h0 : 0 < p) (h1 : p < 1) (a : ℝ) :
    Approaches atTop (fun b => qunif (fin p) (fin a) (fin b)) pinf ∧ qunif (fin p) (fin a) pinf = nan := by
  have hk := prob_ok_fin h0.le h1.le
  refine ⟨fun M => ?_, by simp [qunif, unif_ok, hk]⟩
  filter_upwards [eventually_gt_atTop a, eventually_ge_atTop ((M - a) / p + a)] with b hb hM
  have e : qunif (fin p) (fin a) (fin b) = fin (a + p * (b - a)) := by
    simp only [qunif, unif_ok, qunif_compute, ideal]
    simp [hk, not_le.2 hb, h0.ne', h1.ne]
  rw [e, fin_le_fin]
  have := (div_le_iff₀ h0).1 (show (M - a) / p ≤ b - a by linarith)
  linarith
example : Approaches atTop (fun b => qunif (fin (1 / 3)) (fin 1) (fin b)) pinf ∧ qunif (fin (1 / 3)) (fin 1) pinf = nan :=
  C43_qunif_b_violated (p := 1 / 3) (h0 := by meets) (h1 := by meets) (a := 1)

theorem C43_qunif_a_violated {p : ℝ} (h0 : 0 < p) (h1 : p < 1) (b : ℝ) :
    Approaches atBot (fun a => qunif (fin p) (fin a) (fin b)) ninf ∧ qunif (fin p) ninf (fin b) = nan := by
  have hk := prob_ok_fin h0.le h1.le
  refine ⟨fun M => ?_, by simp [qunif, unif_ok, hk]⟩
  have hq : 0 < 1 - p := by linarith
  filter_upwards [eventually_lt_atBot b, eventually_le_atBot ((M - p * b) / (1 - p))] with a hb hM
  have e : qunif (fin p) (fin a) (fin b) = fin (a + p * (b - a)) := by
    simp only [qunif, unif_ok, qunif_compute, ideal]
    simp [hk, not_le.2 hb, h0.ne', h1.ne]
  rw [e, fin_le_fin]
  have := (le_div_iff₀ hq).1 hM
  linarith
example : Approaches atBot (fun a => qunif (fin (1 / 3)) (fin a) (fin 4)) ninf ∧ qunif (fin (1 / 3)) ninf (fin 4) = nan :=
  C43_qunif_a_violated (p := 1 / 3) (h0 := by meets) (h1 := by meets) (b := 4)

theorem C43_qexp_rate {p : ℝ} (h0 : 0 < p) (h1 : p < 1) : LimTop (fun r => qexp (fin p) r) := by
  have hk := prob_ok_fin h0.le h1.le
  have hq : 0 < 1 - p := by linarith
  have e : qexp (fin p) pinf = fin 0 := by
    simp only [qexp, exp_ok, qexp_compute, ideal, ilog hq]
    simp [hk, h0.ne', h1.ne]
  rw [LimTop, e]
  refine ⟨fun r => -Real.log (1 - p) / r, ?_, tendsto_const_nhds.div_atTop tendsto_id⟩
  filter_upwards [eventually_gt_atTop 0] with r hr
  simp only [qexp, exp_ok, qexp_compute, ideal, ilog hq, ifin_div _ hr.ne']
  simp [hk, h0.ne', h1.ne, not_lt.2 hr.le]
example : LimTop (fun r => qexp (fin (1 / 3)) r) := C43_qexp_rate (p := 1 / 3) (h0 := by meets) (h1 := by meets)

theorem qweibull_fin {p k θ : ℝ} (h0 : 0 < p) (h1 : p < 1) (hk : Lib.eps ≤ k) (hθ : Lib.eps ≤ θ) :
    qweibull (fin p) (fin k) (fin θ) = fin (θ * (-Real.log (1 - p)) ^ (1 / k)) := by
  have p1 := Lib.eps_pos.trans_le hk
  have p2 := Lib.eps_pos.trans_le hθ
  have hl : 0 < -Real.log (1 - p) := by
    have := Real.log_neg (show 0 < 1 - p by linarith) (by linarith)
    linarith
  set y := -Real.log (1 - p) with hy
  have hx : 0 < θ * y ^ (1 / k) := by positivity
  have hc : 1 - Real.exp (-(θ * y ^ (1 / k) / θ) ^ k) = p := by
    rw [mul_div_cancel_left₀ _ p2.ne', ← Real.rpow_mul hl.le, one_div, inv_mul_cancel₀ p1.ne', Real.rpow_one, hy,
      neg_neg, Real.exp_log (by linarith)]
    ring
  have := qweibull_inv hk hθ (θ * y ^ (1 / k)) (by simp only [if_pos hx, hc]; exact h0)
    (by simp only [if_pos hx, hc]; exact h1)
  simpa only [if_pos hx, hc] using this

theorem C43_qweibull_shape {p scale : ℝ} (h0 : 0 < p) (h1 : p < 1) (hs : Lib.eps ≤ scale) :
    LimTop (fun k => qweibull (fin p) k (fin scale)) := by
  have hk := prob_ok_fin h0.le h1.le
  have e : qweibull (fin p) pinf (fin scale) = fin scale := by
    simp [qweibull, weibull_ok, eps, hk, not_lt.2 hs, h0.ne', h1.ne]
  rw [LimTop, e]
  have hl : 0 < -Real.log (1 - p) := by
    have := Real.log_neg (show 0 < 1 - p by linarith) (by linarith)
    linarith
  refine ⟨fun k => scale * (-Real.log (1 - p)) ^ (1 / k),
    (eventually_ge_atTop Lib.eps).mono fun k hk => qweibull_fin h0 h1 hk hs, ?_⟩
  have hz : Tendsto (fun k : ℝ => 1 / k) atTop (𝓝 0) := tendsto_const_nhds.div_atTop tendsto_id
  have := ((Real.continuous_const_rpow hl.ne').tendsto 0).comp hz
  simpa using this.const_mul scale
example : LimTop (fun k => qweibull (fin (1 / 3)) k (fin 2)) :=
  C43_qweibull_shape (p := 1 / 3) (scale := 2) (h0 := by meets) (h1 := by meets) (hs := by meets)

theorem C43_qweibull_scale {p shape : ℝ} (h0 : 0 < p) (h1 : p < 1) (hs : Lib.eps ≤ shape) :
    LimTop (fun s => qweibull (fin p) (fin shape) s) := by
  have hk := prob_ok_fin h0.le h1.le
  have p1 := Lib.eps_pos.trans_le hs
  have hl : 0 < -Real.log (1 - p) := by
    have := Real.log_neg (show 0 < 1 - p by linarith) (by linarith)
    linarith
  have hpow : 0 < (-Real.log (1 - p)) ^ (1 / shape) := by positivity
  have e : qweibull (fin p) (fin shape) pinf = pinf := by
    have h2 : log1p (-fin p) = fin (Real.log (1 - p)) := by
      rw [show (-fin p : Fl) = fin (-p) from rfl, ilog1p (by linarith)]; ring_nf
    have h3 : -fin (Real.log (1 - p)) = fin (-Real.log (1 - p)) := rfl
    have h4 : (1 : Fl) / fin shape = fin (1 / shape) := by rw [one_eq, ifin_div _ p1.ne']
    have h5 : qweibull_compute (fin p) (fin shape) pinf = pinf := by
      rw [qweibull_compute, h2, h3, h4, ipow _ hl, pinf_mul_fin, if_neg hpow.ne', if_pos hpow]
    simp [qweibull, weibull_ok, eps, h5, hk, not_lt.2 hs, h0.ne', h1.ne, p1.ne']
  rw [LimTop, e]
  intro M
  filter_upwards [eventually_ge_atTop Lib.eps, eventually_ge_atTop (M / (-Real.log (1 - p)) ^ (1 / shape))] with s h2 h3
  rw [qweibull_fin h0 h1 hs h2, fin_le_fin]
  exact (div_le_iff₀ hpow).1 h3
example : LimTop (fun s => qweibull (fin (1 / 3)) (fin 3) s) :=
  C43_qweibull_scale (p := 1 / 3) (shape := 3) (h0 := by meets) (h1 := by meets) (hs := by meets)

/-! ### Families with a limit law -/

/-- the quantile of an `IsInv` pair as a real function of the parameter -/
theorem quant_real {q : Fl → Fl} {F f : ℝ → ℝ} (hF : IsCdf F f) (hq : IsInv q F) {p : ℝ} (h0 : 0 < p) (h1 : p < 1) :
    ∃ x, F x = p ∧ q (fin p) = fin x := by
  obtain ⟨x, rfl⟩ := hF.exists_eq h0 h1
  exact ⟨x, rfl, hq x h0 h1⟩

/-- values of the quantiles along a parameter, as a real function -/
theorem quant_fun {Q : Fl → Fl → Fl} {F f : ℝ → ℝ → ℝ} {c : ℝ} (hF : ∀ t, c ≤ t → IsCdf (F t) (f t))
    (hq : ∀ t, c ≤ t → IsInv (fun u => Q u (fin t)) (F t)) {p : ℝ} (h0 : 0 < p) (h1 : p < 1) :
    ∃ q : ℝ → ℝ, (∀ t, c ≤ t → F t (q t) = p) ∧ ∀ t, c ≤ t → Q (fin p) (fin t) = fin (q t) := by
  have : ∀ t, ∃ x, c ≤ t → F t x = p ∧ Q (fin p) (fin t) = fin x := by
    intro t
    by_cases h : c ≤ t
    · obtain ⟨x, hx⟩ := quant_real (hF t h) (hq t h) h0 h1
      exact ⟨x, fun _ => hx⟩
    · exact ⟨0, fun h' => absurd h' h⟩
  choose q hq' using this
  exact ⟨q, fun t h => (hq' t h).1, fun t h => (hq' t h).2⟩

/-- If the distribution functions tend to 0 at every point, the quantiles tend to `+inf`. -/
theorem quant_top {Q : Fl → Fl → Fl} {F f : ℝ → ℝ → ℝ} {c : ℝ} (hF : ∀ t, c ≤ t → IsCdf (F t) (f t))
    (hq : ∀ t, c ≤ t → IsInv (fun u => Q u (fin t)) (F t)) (hl : ∀ x, Tendsto (fun t => F t x) atTop (𝓝 0))
    {p : ℝ} (h0 : 0 < p) (h1 : p < 1) : Approaches atTop (fun t => Q (fin p) (fin t)) pinf := by
  obtain ⟨q, hq1, hq2⟩ := quant_fun hF hq h0 h1
  intro M
  filter_upwards [eventually_ge_atTop c, (hl M).eventually_lt_const h0] with t ht hM
  rw [hq2 t ht, fin_le_fin]
  by_contra hn
  have := (hF t ht).mono (not_le.1 hn).le
  rw [hq1 t ht] at this
  linarith

theorem C43_qgamma_shape_violated {p scale : ℝ} (h0 : 0 < p) (h1 : p < 1) (hs : Lib.eps ≤ scale) :
    Approaches atTop (fun k => qgamma (fin p) (fin k) (fin scale)) pinf ∧ qgamma (fin p) pinf (fin scale) = nan := by
  have p1 := Lib.eps_pos.trans_le hs
  refine ⟨quant_top (Q := fun u k => qgamma u k (fin scale)) (c := 1)
    (fun k hk => isCdf_gamma (by linarith) p1) (fun k hk => qgamma_inv (by linarith) hs) (fun x => ?_) h0 h1, ?_⟩
  · by_cases hx : 0 < x
    · simp only [if_pos hx]; exact Lim.gammaP_shape (by positivity)
    · simp only [if_neg hx]; exact tendsto_const_nhds
  · simp [qgamma, gamma_ok, eps, prob_ok_fin h0.le h1.le, not_lt.2 hs, h0.ne', h1.ne, qgamma_limit_vals]
example : Approaches atTop (fun k => qgamma (fin (1 / 3)) (fin k) (fin 2)) pinf ∧ qgamma (fin (1 / 3)) pinf (fin 2) = nan :=
  C43_qgamma_shape_violated (p := 1 / 3) (scale := 2) (h0 := by meets) (h1 := by meets) (hs := by meets)

theorem C43_qgamma_scale_violated {p shape : ℝ} (h0 : 0 < p) (h1 : p < 1) (hk : 0 < shape) :
    Approaches atTop (fun s => qgamma (fin p) (fin shape) (fin s)) pinf ∧ qgamma (fin p) (fin shape) pinf = nan := by
  refine ⟨quant_top (Q := fun u s => qgamma u (fin shape) s) (c := Lib.eps)
    (fun s hs => isCdf_gamma hk (Lib.eps_pos.trans_le hs)) (fun s hs => qgamma_inv hk hs) (fun x => ?_) h0 h1, ?_⟩
  · by_cases hx : 0 < x
    · simp only [if_pos hx]; exact Lim.gammaP_scale hk hx
    · simp only [if_neg hx]; exact tendsto_const_nhds
  · simp [qgamma, gamma_ok, eps, prob_ok_fin h0.le h1.le, not_lt.2 hk.le, hk.ne', h0.ne', h1.ne, qgamma_limit_vals]
example : Approaches atTop (fun s => qgamma (fin (1 / 3)) (fin 3) (fin s)) pinf ∧ qgamma (fin (1 / 3)) (fin 3) pinf = nan :=
  C43_qgamma_scale_violated (p := 1 / 3) (shape := 3) (h0 := by meets) (h1 := by meets) (hk := by meets)

/-- The inverse incomplete gamma function of the library receives an infinite first argument; the model, like gcem,
gives NaN for it. -/
theorem C43_qchisq_dof_violated {p : ℝ} (h0 : 0 < p) (h1 : p < 1) :
    Approaches atTop (fun k => qchisq (fin p) (fin k)) pinf ∧ qchisq (fin p) pinf = nan := by
  refine ⟨quant_top (Q := fun u k => qchisq u k) (c := 1)
    (F := fun k x => if 0 < x then gammaP (k / 2) (x / 2) else 0) (f := fun k => gammaPdf (k / 2) 2)
    (fun k hk => isCdf_gamma (by linarith) two_pos) (fun k hk => qchisq_inv (by linarith)) (fun x => ?_) h0 h1, ?_⟩
  · by_cases hx : 0 < x
    · simp only [if_pos hx]
      exact (Lim.gammaP_shape (by positivity)).comp (tendsto_id.atTop_div_const two_pos)
    · simp only [if_neg hx]; exact tendsto_const_nhds
  · simp [qchisq, chisq_ok, prob_ok_fin h0.le h1.le, h0.ne', h1.ne, qchisq_compute, pinf_div_fin, igammaInv, ideal]
example : Approaches atTop (fun k => qchisq (fin (1 / 3)) (fin k)) pinf ∧ qchisq (fin (1 / 3)) pinf = nan :=
  C43_qchisq_dof_violated (p := 1 / 3) (h0 := by meets) (h1 := by meets)

theorem C43_qinvgamma_shape_violated {p rate : ℝ} (h0 : 0 < p) (h1 : p < 1) (hr : 0 < rate) :
    Approaches atTop (fun k => qinvgamma (fin p) (fin k) (fin rate)) (fin 0) ∧ qinvgamma (fin p) pinf (fin rate) = nan := by
  constructor
  · obtain ⟨q, hq1, hq2⟩ := quant_fun (Q := fun u k => qinvgamma u k (fin rate)) (c := 1)
      (fun k hk => isCdf_invgamma (show 0 < k by linarith) hr) (fun k hk => qinvgamma_inv (by linarith) hr) h0 h1
    refine ⟨q, (eventually_ge_atTop 1).mono hq2, ?_⟩
    refine Lim.quantile_lim (F := fun k x => if 0 < x then 1 - gammaP k (rate / x) else 0)
      (G := fun x => if 0 < x then 1 else 0) (u := p)
      ((eventually_ge_atTop 1).mono fun k hk => (isCdf_invgamma (show 0 < k by linarith) hr).mono)
      (fun x _ => ?_) ((eventually_ge_atTop 1).mono hq1) (fun x hx => ?_) (fun x hx => ?_)
    · by_cases hx : 0 < x
      · simp only [if_pos hx]
        simpa using (Lim.gammaP_shape (z := rate / x) (by positivity)).const_sub 1
      · simp only [if_neg hx]; exact tendsto_const_nhds
    · simp only [if_neg (not_lt.2 hx.le)]; exact h0
    · simp only [if_pos hx]; exact h1
  · simp [qinvgamma, invgamma_ok, prob_ok_fin h0.le h1.le, not_lt.2 hr.le, hr.ne', h0.ne', h1.ne, qinvgamma_limit_vals]
example : Approaches atTop (fun k => qinvgamma (fin (1 / 3)) (fin k) (fin 2)) (fin 0) ∧ qinvgamma (fin (1 / 3)) pinf (fin 2) = nan :=
  C43_qinvgamma_shape_violated (p := 1 / 3) (rate := 2) (h0 := by meets) (h1 := by meets) (hr := by meets)

theorem C43_qinvgamma_rate_violated {p shape : ℝ} (h0 : 0 < p) (h1 : p < 1) (hk : 0 < shape) :
    Approaches atTop (fun r => qinvgamma (fin p) (fin shape) (fin r)) pinf ∧
      qinvgamma (fin p) (fin shape) pinf = nan := by
  refine ⟨quant_top (Q := fun u r => qinvgamma u (fin shape) r) (c := 1)
    (fun r hr => isCdf_invgamma hk (show 0 < r by linarith)) (fun r hr => qinvgamma_inv hk (by linarith))
    (fun x => ?_) h0 h1, ?_⟩
  · by_cases hx : 0 < x
    · simp only [if_pos hx]
      simpa using ((tendsto_gammaP hk).comp (tendsto_id.atTop_div_const hx)).const_sub 1
    · simp only [if_neg hx]; exact tendsto_const_nhds
  · simp [qinvgamma, invgamma_ok, prob_ok_fin h0.le h1.le, not_lt.2 hk.le, hk.ne', h0.ne', h1.ne, qinvgamma_limit_vals]
example : Approaches atTop (fun r => qinvgamma (fin (1 / 3)) (fin 3) (fin r)) pinf ∧
      qinvgamma (fin (1 / 3)) (fin 3) pinf = nan :=
  C43_qinvgamma_rate_violated (p := 1 / 3) (shape := 3) (h0 := by meets) (h1 := by meets) (hk := by meets)

/-! ### Beta and F -/

theorem C43_qbeta_a {p b : ℝ} (h0 : 0 < p) (h1 : p < 1) (hb : 0 < b) : LimTop (fun a => qbeta (fin p) a (fin b)) := by
  have e : qbeta (fin p) pinf (fin b) = fin 1 := by
    simp [qbeta, beta_ok, prob_ok_fin h0.le h1.le, not_lt.2 hb.le, hb.ne', h0.ne', h1.ne, qbeta_limit_vals, one_eq]
  rw [LimTop, e]
  obtain ⟨q, hq1, hq2⟩ := quant_fun (Q := fun u a => qbeta u a (fin b)) (c := 1)
    (fun a ha => isCdf_beta (show 0 < a by linarith) hb) (fun a ha => qbeta_inv (by linarith) hb) h0 h1
  refine ⟨q, (eventually_ge_atTop 1).mono hq2, ?_⟩
  refine Lim.quantile_lim (F := fun a => betaCdf a b) (G := fun x => if x < 1 then 0 else 1) (u := p)
    ((eventually_ge_atTop 1).mono fun a ha => (isCdf_beta (show 0 < a by linarith) hb).mono)
    (fun x _ => Lim.betaCdf_a hb) ((eventually_ge_atTop 1).mono hq1) (fun x hx => ?_) (fun x hx => ?_)
  · simp only [if_pos hx]; exact h0
  · simp only [if_neg (not_lt.2 (le_of_lt hx))]; exact h1
example : LimTop (fun a => qbeta (fin (1 / 3)) a (fin 4)) :=
  C43_qbeta_a (p := 1 / 3) (b := 4) (h0 := by meets) (h1 := by meets) (hb := by meets)

theorem C43_qbeta_b {p a : ℝ} (h0 : 0 < p) (h1 : p < 1) (ha : 0 < a) : LimTop (fun b => qbeta (fin p) (fin a) b) := by
  have e : qbeta (fin p) (fin a) pinf = fin 0 := by
    simp [qbeta, beta_ok, prob_ok_fin h0.le h1.le, not_lt.2 ha.le, ha.ne', h0.ne', h1.ne, qbeta_limit_vals]
  rw [LimTop, e]
  obtain ⟨q, hq1, hq2⟩ := quant_fun (Q := fun u b => qbeta u (fin a) b) (c := 1)
    (fun b hb => isCdf_beta ha (show 0 < b by linarith)) (fun b hb => qbeta_inv ha (by linarith)) h0 h1
  refine ⟨q, (eventually_ge_atTop 1).mono hq2, ?_⟩
  refine Lim.quantile_lim (F := fun b => betaCdf a b) (G := fun x => if x < 0 then 0 else 1) (u := p)
    ((eventually_ge_atTop 1).mono fun b hb => (isCdf_beta ha (show 0 < b by linarith)).mono)
    (fun x hx => Lim.betaCdf_b ha hx) ((eventually_ge_atTop 1).mono hq1) (fun x hx => ?_) (fun x hx => ?_)
  · simp only [if_pos hx]; exact h0
  · simp only [if_neg (not_lt.2 (le_of_lt hx))]; exact h1
example : LimTop (fun b => qbeta (fin (1 / 3)) (fin 1) b) :=
  C43_qbeta_b (p := 1 / 3) (a := 1) (h0 := by meets) (h1 := by meets) (ha := by meets)

theorem C43_qf_df2 {p d1 : ℝ} (h0 : 0 < p) (h1 : p < 1) (hd : Lib.eps ≤ d1) :
    LimTop (fun d2 => qf (fin p) (fin d1) d2) := by
  have pd := Lib.eps_pos.trans_le hd
  have hc := isCdf_gamma (show 0 < d1 / 2 by positivity) (show 0 < 2 / d1 by positivity)
  obtain ⟨r, hr⟩ := hc.exists_eq h0 h1
  have hr0 : 0 < r := by by_contra h; rw [if_neg h] at hr; linarith
  have hr' : (if 0 < r * d1 then gammaP (d1 / 2) (r * d1 / 2) else 0) = p := by
    rw [if_pos (by positivity)]
    rw [if_pos hr0, show r / (2 / d1) = r * d1 / 2 by field_simp] at hr
    exact hr
  have e : qf (fin p) (fin d1) pinf = fin r := by
    have := qchisq_inv pd (r * d1) (by simp only [hr']; exact h0) (by simp only [hr']; exact h1)
    simp only [hr'] at this
    simp only [qf, f_ok, eps, qf_limit_vals_dof, this, ideal, ifin_div _ pd.ne']
    simp [prob_ok_fin h0.le h1.le, not_lt.2 hd, h0.ne', h1.ne, pd.ne']
  rw [LimTop, e]
  obtain ⟨q, hq1, hq2⟩ := quant_fun (Q := fun u d2 => qf u (fin d1) d2) (c := Lib.eps)
    (fun d2 h => isCdf_f pd (Lib.eps_pos.trans_le h)) (fun d2 h => qf_inv hd h) h0 h1
  refine ⟨q, (eventually_ge_atTop Lib.eps).mono hq2, ?_⟩
  have hmono : ∀ x y, 0 < y → x < y → (if 0 < x then gammaP (d1 / 2) (x / (2 / d1)) else 0) <
      if 0 < y then gammaP (d1 / 2) (y / (2 / d1)) else 0 := by
    intro x y hy hxy
    have h2 : (0 : ℝ) < 2 / d1 := by positivity
    have hm := strictMonoOn_gammaP (show 0 < d1 / 2 by positivity)
    rw [if_pos hy]
    split_ifs with hx
    · exact hm (show (0 : ℝ) ≤ _ by positivity) (show (0 : ℝ) ≤ _ by positivity) ((div_lt_div_iff_of_pos_right h2).2 hxy)
    · have := hm (show (0 : ℝ) ∈ Set.Ici 0 by simp) (show (y / (2 / d1) : ℝ) ∈ Set.Ici 0 from (div_pos hy h2).le)
        (div_pos hy h2)
      exact (gammaP_nonneg (by positivity) le_rfl).trans_lt this
  refine Lim.quantile_lim (F := fun d2 x => if 0 < x then fCdf d1 d2 x else 0)
    (G := fun x => if 0 < x then gammaP (d1 / 2) (x / (2 / d1)) else 0) (u := p)
    ((eventually_ge_atTop Lib.eps).mono fun d2 h => (isCdf_f pd (Lib.eps_pos.trans_le h)).mono)
    (fun x _ => Lim.fCdf_df2 pd x) ((eventually_ge_atTop Lib.eps).mono hq1) (fun x hx => ?_) (fun x hx => ?_)
  · rw [← hr]; exact hmono x r hr0 hx
  · rw [← hr]; exact hmono r x (hr0.trans hx) hx
example : LimTop (fun d2 => qf (fin (1 / 3)) (fin 3) d2) :=
  C43_qf_df2 (p := 1 / 3) (d1 := 3) (h0 := by meets) (h1 := by meets) (hd := by meets)

theorem C43_qf_df1 {p d2 : ℝ} (h0 : 0 < p) (h1 : p < 1) (hd : Lib.eps ≤ d2) :
    LimTop (fun d1 => qf (fin p) d1 (fin d2)) := by
  have pd := Lib.eps_pos.trans_le hd
  have pd2 : 0 < d2 / 2 := by positivity
  have hc := isCdf_invgamma pd2 pd2
  obtain ⟨r, hr⟩ := hc.exists_eq h0 h1
  have hr0 : 0 < r := by by_contra h; rw [if_neg h] at hr; linarith
  have hr' : (if 0 < d2 / r then gammaP (d2 / 2) (d2 / r / 2) else 0) = 1 - p := by
    rw [if_pos (by positivity)]
    rw [if_pos hr0, show d2 / 2 / r = d2 / r / 2 by ring] at hr
    linarith
  have e : qf (fin p) pinf (fin d2) = fin r := by
    have := qchisq_inv pd (d2 / r) (by simp only [hr']; linarith) (by simp only [hr']; linarith)
    simp only [hr'] at this
    have hne : d2 / r ≠ 0 := by positivity
    simp only [qf, f_ok, eps, qf_limit_vals_dof, this, ideal, ifin_div _ hne]
    simp [prob_ok_fin h0.le h1.le, not_lt.2 hd, h0.ne', h1.ne]
    field_simp
  rw [LimTop, e]
  obtain ⟨q, hq1, hq2⟩ := quant_fun (Q := fun u d1 => qf u d1 (fin d2)) (c := Lib.eps)
    (fun d1 h => isCdf_f (Lib.eps_pos.trans_le h) pd) (fun d1 h => qf_inv h hd) h0 h1
  refine ⟨q, (eventually_ge_atTop Lib.eps).mono hq2, ?_⟩
  have hmono : ∀ x y, 0 < y → x < y → (if 0 < x then 1 - gammaP (d2 / 2) (d2 / 2 / x) else 0) <
      if 0 < y then 1 - gammaP (d2 / 2) (d2 / 2 / y) else 0 := by
    intro x y hy hxy
    have hm := strictMonoOn_gammaP pd2
    rw [if_pos hy]
    split_ifs with hx
    · have := hm (show (0 : ℝ) ≤ d2 / 2 / y by positivity) (show (0 : ℝ) ≤ d2 / 2 / x by positivity)
        (div_lt_div_of_pos_left pd2 hx hxy)
      linarith
    · have := gammaP_lt_one pd2 (show (0 : ℝ) ≤ d2 / 2 / y by positivity)
      linarith
  refine Lim.quantile_lim (F := fun d1 x => if 0 < x then fCdf d1 d2 x else 0)
    (G := fun x => if 0 < x then 1 - gammaP (d2 / 2) (d2 / 2 / x) else 0) (u := p)
    ((eventually_ge_atTop Lib.eps).mono fun d1 h => (isCdf_f (Lib.eps_pos.trans_le h) pd).mono)
    (fun x _ => Lim.fCdf_df1 pd x) ((eventually_ge_atTop Lib.eps).mono hq1) (fun x hx => ?_) (fun x hx => ?_)
  · rw [← hr]; exact hmono x r hr0 hx
  · rw [← hr]; exact hmono r x (hr0.trans hx) hx
example : LimTop (fun d1 => qf (fin (1 / 3)) d1 (fin 5)) :=
  C43_qf_df1 (p := 1 / 3) (d2 := 5) (h0 := by meets) (h1 := by meets) (hd := by meets)

end Stats

/-! ### The hypotheses are met -/

namespace Stats.ExamplesC43
open Fl Spec
open scoped Stats.Exact

private theorem eps1 : (Lib.eps : ℝ) ≤ 1 := Lib.eps_le.trans (by norm_num)
private theorem eps2 : (Lib.eps : ℝ) ≤ 2 := Lib.eps_le.trans (by norm_num)
private theorem eps3 : (Lib.eps : ℝ) ≤ 3 := Lib.eps_le.trans (by norm_num)

example : LimTop2 (fun x => dnorm x (fin 1) (fin 2)) := (C43_dnorm_x 1 two_pos).1
example : LimTop2 (fun s => plogis (fin 3) (fin 1) s) := C43_plogis_sigma 3 1
example : LimTop2 (fun k => dgamma (fin 3) k (fin 2)) := C43_dgamma_shape (by norm_num) eps2
example : LimTop2 (fun k => pgamma (fin 3) k (fin 2)) := C43_pgamma_shape eps3 eps2
example : LimTop2 (fun k => dt (fin 3) k) := C43_dt_dof 3
example : LimTop2 (fun k => pt (fin (-3)) k) := C43_pt_dof (-3)
example : LimTop2 (fun d2 => df (fin 3) (fin 2) d2) := C43_df_df2 (by norm_num) eps2 (by norm_num; exact eps1)
example : LimTop2 (fun d2 => pf (fin 3) (fin 2) d2) :=
  C43_pf_df2 eps3 eps2 (Lib.eps_le.trans (by norm_num))
example : LimTop (fun d1 => pf (fin 1) d1 (fin 2) false) := C43_pf_df1_partial eps1 eps2 (by norm_num; exact eps2)
example : LimTop2 (fun k => pweibull (fin 2) k (fin 2)) := C43_pweibull_shape eps2 eps2
example : LimTop2 (fun k => pinvgamma (fin 1) k (fin 1)) :=
  C43_pinvgamma_shape one_pos (by norm_num; exact eps1) one_pos (by norm_num; exact eps1)
example : LimTop2 (fun l => pinvgauss (fin 1) (fin 2) l) := C43_pinvgauss_lambda one_pos two_pos (by norm_num)
example : LimTop2 (fun a => dbeta (fin (1 / 2)) a (fin 2)) := C43_dbeta_a ⟨by norm_num, by norm_num⟩ two_pos
example : LimTop (fun d2 => qf (fin (1 / 3)) (fin 2) d2) := C43_qf_df2 (by norm_num) (by norm_num) eps2
example : LimTop (fun b => qbeta (fin (1 / 3)) (fin 2) b) := C43_qbeta_b (by norm_num) (by norm_num) two_pos
example : LimTop (fun mu => qcauchy (fin (1 / 3)) mu (fin 2)) := (C43_qcauchy_mu (by norm_num) (by norm_num) two_pos).1
example : qnorm (fin (3 / 4)) (fin 1) pinf = nan := (C43_qnorm_sigma_violated (by norm_num) (by norm_num) 1).2
example : dinvgauss (fin 1) pinf (fin 1) false = fin 0 ∧ ¬ LimTop2 (fun m => dinvgauss (fin 1) m (fin 1)) :=
  ⟨by simp [dinvgauss, invgauss_ok', invgauss_ok, dinvgauss_limit_vals], C43_dinvgauss_mu_violated one_pos one_pos⟩

end Stats.ExamplesC43

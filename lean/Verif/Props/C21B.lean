import Verif.Props.C21
import Verif.Spec.Quant

/-!
# C15, C16, C21: what 100 Newton steps of `qinvgauss` achieve, exact arithmetic

`qinvgauss` starts at the mode and makes at most 100 Newton steps. The theorems here bound its error, show that it is
increasing in the probability up to the stopping tolerance, and show that far tails are out of reach.
-/

set_option linter.unusedSectionVars false
open Classical
namespace Stats
open Fl Spec Set

variable [Lib] [Ideal]

/-! ### the real iteration -/

/-- the `n`-th iterate -/
noncomputable def igA (mu lambda u : ℝ) (n : ℕ) : ℝ := (igN mu lambda u)^[n] (igMode mu lambda)

theorem igA_succ (mu lambda u : ℝ) (n : ℕ) : igA mu lambda u (n + 1) = igN mu lambda u (igA mu lambda u n) :=
  Function.iterate_succ_apply' _ _ _

/-- a step from the right of the mode, below the target -/
theorem igN_right' {mu lambda u x : ℝ} (hm : 0 < mu) (hl : 0 < lambda) (h1 : igMode mu lambda ≤ x)
    (h2 : igF mu lambda x ≤ u) : x ≤ igN mu lambda u x ∧ igF mu lambda (igN mu lambda u x) ≤ u := by
  have hp := (igMode_root hm hl).1
  have hf := invgaussPdf_pos hm hl (hp.trans_le h1)
  have hF := isCdf_invgauss hm hl
  have hx : x ≤ igN mu lambda u x := by
    have : 0 ≤ (u - igF mu lambda x) / invgaussPdf mu lambda x := div_nonneg (by linarith) hf.le
    rw [igN]; linarith
  refine ⟨hx, ?_⟩
  have h := hF.sub_le_right hx ((invgaussPdf_antitone hm hl).mono (Ici_subset_Ici.2 h1))
  have e : invgaussPdf mu lambda x * (igN mu lambda u x - x) = u - igF mu lambda x := by
    rw [igN]; field_simp; ring
  rw [e] at h
  linarith

/-- a step from the left of the mode, above the target, that stays positive -/
theorem igN_left' {mu lambda u x : ℝ} (hm : 0 < mu) (hl : 0 < lambda) (hx0 : 0 < x) (h1 : x ≤ igMode mu lambda)
    (h2 : u ≤ igF mu lambda x) (hN : 0 < igN mu lambda u x) :
    igN mu lambda u x ≤ x ∧ u ≤ igF mu lambda (igN mu lambda u x) := by
  have hf := invgaussPdf_pos hm hl hx0
  have hF := isCdf_invgauss hm hl
  have hx : igN mu lambda u x ≤ x := by
    have : (u - igF mu lambda x) / invgaussPdf mu lambda x ≤ 0 := div_nonpos_of_nonpos_of_nonneg (by linarith) hf.le
    rw [igN]; linarith
  refine ⟨hx, ?_⟩
  have h := hF.sub_le_left hN hx ((invgaussPdf_monotone hm hl).mono (Ioc_subset_Ioc_right h1))
  have e : invgaussPdf mu lambda x * (x - igN mu lambda u x) = igF mu lambda x - u := by
    rw [igN]; field_simp; ring
  rw [e] at h
  linarith

theorem igN_mono_u {mu lambda u u' x : ℝ} (hm : 0 < mu) (hl : 0 < lambda) (hx : 0 < x) (h : u ≤ u') :
    igN mu lambda u x ≤ igN mu lambda u' x := by
  have hf := invgaussPdf_pos hm hl hx
  rw [igN, igN]
  gcongr

/-- the step is increasing in the starting point, right of the mode and below the target -/
theorem igN_mono_right {mu lambda u x x' : ℝ} (hm : 0 < mu) (hl : 0 < lambda) (h1 : igMode mu lambda ≤ x) (h : x ≤ x')
    (h2 : igF mu lambda x' ≤ u) : igN mu lambda u x ≤ igN mu lambda u x' := by
  have hp := (igMode_root hm hl).1
  have hf := invgaussPdf_pos hm hl (hp.trans_le h1)
  have hf' := invgaussPdf_pos hm hl (hp.trans_le (h1.trans h))
  have hF := isCdf_invgauss hm hl
  have ha := invgaussPdf_antitone hm hl h1 (h1.trans h) h
  have hs := hF.sub_le_right h ((invgaussPdf_antitone hm hl).mono (Ici_subset_Ici.2 h1))
  rw [igN, igN]
  have e1 : (u - igF mu lambda x') / invgaussPdf mu lambda x ≤ (u - igF mu lambda x') / invgaussPdf mu lambda x' :=
    div_le_div_of_nonneg_left (by linarith) hf' ha
  have e2 : (u - igF mu lambda x) / invgaussPdf mu lambda x ≤ (x' - x) + (u - igF mu lambda x') / invgaussPdf mu lambda x := by
    rw [div_le_iff₀ hf, add_mul, div_mul_cancel₀ _ hf.ne']
    linarith
  linarith

theorem igN_mono_left {mu lambda u x x' : ℝ} (hm : 0 < mu) (hl : 0 < lambda) (h0 : 0 < x) (h1 : x' ≤ igMode mu lambda)
    (h : x ≤ x') (h2 : u ≤ igF mu lambda x) : igN mu lambda u x ≤ igN mu lambda u x' := by
  have hx' := h0.trans_le h
  have hf := invgaussPdf_pos hm hl h0
  have hf' := invgaussPdf_pos hm hl hx'
  have hF := isCdf_invgauss hm hl
  have ha := invgaussPdf_monotone hm hl ⟨h0, h.trans h1⟩ ⟨hx', h1⟩ h
  have hs := hF.sub_le_left h0 h ((invgaussPdf_monotone hm hl).mono (Ioc_subset_Ioc_right h1))
  rw [igN, igN]
  have e1 : (igF mu lambda x - u) / invgaussPdf mu lambda x' ≤ (igF mu lambda x - u) / invgaussPdf mu lambda x :=
    div_le_div_of_nonneg_left (by linarith) hf ha
  have e2 : (igF mu lambda x' - u) / invgaussPdf mu lambda x' ≤ (x' - x) + (igF mu lambda x - u) / invgaussPdf mu lambda x' := by
    rw [div_le_iff₀ hf', add_mul, div_mul_cancel₀ _ hf'.ne']
    linarith
  have e3 : (u - igF mu lambda x) / invgaussPdf mu lambda x = -((igF mu lambda x - u) / invgaussPdf mu lambda x) := by
    rw [← neg_div, neg_sub]
  have e4 : (u - igF mu lambda x') / invgaussPdf mu lambda x' = -((igF mu lambda x' - u) / invgaussPdf mu lambda x') := by
    rw [← neg_div, neg_sub]
  linarith

/-! ### how slowly the lower tail is approached -/

theorem hasDerivAt_sq_invgauss {mu lambda x : ℝ} (hm : 0 < mu) (hx : 0 < x) :
    HasDerivAt (fun x => x ^ 2 * Real.exp (igLog mu lambda x))
      (Real.exp (igLog mu lambda x) * (lambda / 2 + x / 2 - lambda * x ^ 2 / (2 * mu ^ 2))) x := by
  refine ((hasDerivAt_pow 2 x).mul (hasDerivAt_igLog hm hx).exp).congr_deriv ?_
  field_simp
  ring

/-- left of the mode the distribution function is at most `x² f(x) / c`, `c` three halves of the mode -/
theorem igF_le_sq {mu lambda x : ℝ} (hm : 0 < mu) (hl : 0 < lambda) (hx : 0 < x) (h : x ≤ igMode mu lambda) :
    igF mu lambda x * (3 * igMode mu lambda / 2) ≤ x ^ 2 * invgaussPdf mu lambda x := by
  obtain ⟨hp, hr⟩ := igMode_root hm hl
  have hF := isCdf_invgauss hm hl
  set m := igMode mu lambda with hmdef
  -- on [y, x]
  have key : ∀ y, 0 < y → y ≤ x → (igF mu lambda x - igF mu lambda y) * (3 * m / 2) ≤ x ^ 2 * invgaussPdf mu lambda x := by
    intro y hy hyx
    have hd : ∀ t ∈ uIcc y x, HasDerivAt (fun x => x ^ 2 * Real.exp (igLog mu lambda x))
        (Real.exp (igLog mu lambda t) * (lambda / 2 + t / 2 - lambda * t ^ 2 / (2 * mu ^ 2))) t := by
      intro t ht
      rw [uIcc_of_le hyx] at ht
      exact hasDerivAt_sq_invgauss hm (hy.trans_le ht.1)
    have hc : ContinuousOn (fun t => Real.exp (igLog mu lambda t) * (lambda / 2 + t / 2 - lambda * t ^ 2 / (2 * mu ^ 2)))
        (uIcc y x) := by
      rw [uIcc_of_le hyx]
      intro t ht
      have h1 : ContinuousAt (fun t => Real.exp (igLog mu lambda t)) t :=
        (hasDerivAt_igLog hm (hy.trans_le ht.1)).continuousAt.rexp
      exact (h1.mul (by fun_prop)).continuousWithinAt
    have hi := intervalIntegral.integral_eq_sub_of_hasDerivAt hd hc.intervalIntegrable
    have hle : ∫ t in y..x, invgaussPdf mu lambda t * (3 * m / 2) ≤
        ∫ t in y..x, Real.exp (igLog mu lambda t) * (lambda / 2 + t / 2 - lambda * t ^ 2 / (2 * mu ^ 2)) := by
      apply intervalIntegral.integral_mono_on hyx (hF.integrable.intervalIntegrable.mul_const _) hc.intervalIntegrable
      intro t ht
      have ht0 := hy.trans_le ht.1
      rw [invgaussPdf_exp hl ht0]
      apply mul_le_mul_of_nonneg_left _ (Real.exp_pos _).le
      have e : lambda / 2 - lambda * m ^ 2 / (2 * mu ^ 2) = 3 * m / 2 := by
        field_simp
        linarith
      have e2 : lambda * t ^ 2 / (2 * mu ^ 2) ≤ lambda * m ^ 2 / (2 * mu ^ 2) := by
        have := ht.2.trans h
        gcongr
      linarith
    rw [intervalIntegral.integral_mul_const, ← hF.sub_eq, hi] at hle
    rw [invgaussPdf_exp hl hx]
    have : 0 ≤ y ^ 2 * Real.exp (igLog mu lambda y) := by positivity
    linarith
  have hlim : Filter.Tendsto (fun y => (igF mu lambda x - igF mu lambda y) * (3 * m / 2)) (nhdsWithin 0 (Ioi 0))
      (nhds ((igF mu lambda x - igF mu lambda 0) * (3 * m / 2))) := by
    have hcF : Continuous (igF mu lambda) := hF.continuous
    exact ((((continuous_const (y := igF mu lambda x)).sub hcF).mul_const (3 * m / 2)).tendsto 0).mono_left nhdsWithin_le_nhds
  have h0 : igF mu lambda 0 = 0 := by simp [igF]
  rw [h0, sub_zero] at hlim
  refine le_of_tendsto hlim ?_
  filter_upwards [Ioc_mem_nhdsGT hx] with y hy
  exact key y hy.1 hy.2

theorem igN_floor {mu lambda u x : ℝ} (hm : 0 < mu) (hl : 0 < lambda) (hu : 0 ≤ u) (hx : 0 < x)
    (h : x ≤ igMode mu lambda) : 0 < igN mu lambda u x ∧
      1 / igN mu lambda u x ≤ 1 / x + 2 / igMode mu lambda := by
  have hp := (igMode_root hm hl).1
  have hf := invgaussPdf_pos hm hl hx
  have h1 := igF_le_sq hm hl hx h
  set m := igMode mu lambda
  have h2 : x * (1 - x / (3 * m / 2)) ≤ igN mu lambda u x := by
    have : -(x * (x / (3 * m / 2))) ≤ (u - igF mu lambda x) / invgaussPdf mu lambda x := by
      rw [le_div_iff₀ hf]
      have : igF mu lambda x ≤ x * (x / (3 * m / 2)) * invgaussPdf mu lambda x := by
        have h3 : igF mu lambda x ≤ x ^ 2 * invgaussPdf mu lambda x / (3 * m / 2) := by
          rw [le_div_iff₀ (by positivity)]; exact h1
        refine h3.trans_eq ?_
        field_simp
      linarith
    rw [igN]; linarith
  have h4 : 1 / 3 ≤ 1 - x / (3 * m / 2) := by
    have : x / (3 * m / 2) ≤ m / (3 * m / 2) := by gcongr
    have e : m / (3 * m / 2) = 2 / 3 := by field_simp
    linarith
  have h5 : 0 < x * (1 - x / (3 * m / 2)) := mul_pos hx (by linarith)
  refine ⟨h5.trans_le h2, (one_div_le_one_div_of_le h5 h2).trans ?_⟩
  rw [div_le_iff₀ h5]
  have e : (1 / x + 2 / m) * (x * (1 - x / (3 * m / 2))) = 1 + x / m * (4 / 3) * (1 - x / m) := by
    field_simp
    ring
  rw [e]
  have h6 : x / m ≤ 1 := (div_le_one hp).2 h
  have : 0 ≤ x / m * (4 / 3) * (1 - x / m) := mul_nonneg (by positivity) (by linarith)
  linarith

/-! ### invariants of the iteration -/

theorem igA_right {mu lambda u : ℝ} (hm : 0 < mu) (hl : 0 < lambda) (h : igF mu lambda (igMode mu lambda) ≤ u) (n : ℕ) :
    igMode mu lambda ≤ igA mu lambda u n ∧ igF mu lambda (igA mu lambda u n) ≤ u := by
  induction n with
  | zero => exact ⟨le_rfl, h⟩
  | succ n ih =>
    rw [igA_succ]
    have := igN_right' hm hl ih.1 ih.2
    exact ⟨ih.1.trans this.1, this.2⟩

theorem igA_left {mu lambda u : ℝ} (hm : 0 < mu) (hl : 0 < lambda) (h0 : 0 ≤ u)
    (h : u ≤ igF mu lambda (igMode mu lambda)) (n : ℕ) :
    0 < igA mu lambda u n ∧ igA mu lambda u n ≤ igMode mu lambda ∧ u ≤ igF mu lambda (igA mu lambda u n) ∧
      1 / igA mu lambda u n ≤ (1 + 2 * n) / igMode mu lambda := by
  have hp := (igMode_root hm hl).1
  induction n with
  | zero => exact ⟨hp, le_rfl, h, by simp [igA]⟩
  | succ n ih =>
    rw [igA_succ]
    obtain ⟨a, b, c, d⟩ := ih
    have h1 := igN_floor hm hl h0 a b
    have := igN_left' hm hl a b c h1.1
    refine ⟨h1.1, this.1.trans b, this.2, h1.2.trans ?_⟩
    push_cast
    have e : (1 + 2 * ((n : ℝ) + 1)) / igMode mu lambda = (1 + 2 * n) / igMode mu lambda + 2 / igMode mu lambda := by
      rw [← add_div]; ring
    rw [e]; linarith

theorem igA_pos {mu lambda u : ℝ} (hm : 0 < mu) (hl : 0 < lambda) (h0 : 0 ≤ u) (n : ℕ) : 0 < igA mu lambda u n := by
  rcases le_total (igF mu lambda (igMode mu lambda)) u with h | h
  · exact (igMode_root hm hl).1.trans_le (igA_right hm hl h n).1
  · exact (igA_left hm hl h0 h n).1

/-- the iterates move away from the mode -/
theorem igA_monotone {mu lambda u : ℝ} (hm : 0 < mu) (hl : 0 < lambda) (h : igF mu lambda (igMode mu lambda) ≤ u) :
    Monotone (igA mu lambda u) :=
  monotone_nat_of_le_succ fun n => by
    rw [igA_succ]; exact (igN_right' hm hl (igA_right hm hl h n).1 (igA_right hm hl h n).2).1

theorem igA_antitone {mu lambda u : ℝ} (hm : 0 < mu) (hl : 0 < lambda) (h0 : 0 ≤ u)
    (h : u ≤ igF mu lambda (igMode mu lambda)) : Antitone (igA mu lambda u) :=
  antitone_nat_of_succ_le fun n => by
    obtain ⟨a, b, c, -⟩ := igA_left hm hl h0 h n
    have h1 := igN_floor hm hl h0 a b
    rw [igA_succ]; exact (igN_left' hm hl a b c h1.1).1

/-- equally many steps: a larger probability gives a larger iterate -/
theorem igA_mono_u {mu lambda u u' : ℝ} (hm : 0 < mu) (hl : 0 < lambda) (h0 : 0 ≤ u) (h : u ≤ u') (n : ℕ) :
    igA mu lambda u n ≤ igA mu lambda u' n := by
  rcases le_total (igF mu lambda (igMode mu lambda)) u with h1 | h1
  · induction n with
    | zero => exact le_rfl
    | succ n ih =>
      rw [igA_succ, igA_succ]
      have a := igA_right hm hl h1 n
      have b := igA_right hm hl (h1.trans h) n
      exact (igN_mono_u hm hl (igA_pos hm hl h0 n) h).trans (igN_mono_right hm hl a.1 ih b.2)
  rcases le_total u' (igF mu lambda (igMode mu lambda)) with h2 | h2
  · induction n with
    | zero => exact le_rfl
    | succ n ih =>
      rw [igA_succ, igA_succ]
      have a := igA_left hm hl h0 h1 n
      have b := igA_left hm hl (h0.trans h) h2 n
      exact (igN_mono_left hm hl a.1 b.2.1 ih a.2.2.1).trans (igN_mono_u hm hl b.1 h)
  · exact (igA_left hm hl h0 h1 n).2.1.trans (igA_right hm hl h2 n).1

theorem igF_lt {mu lambda x y : ℝ} (hm : 0 < mu) (hl : 0 < lambda) (hx : igMode mu lambda ≤ x) (h : x < y) :
    igF mu lambda x < igF mu lambda y := by
  have hp := (igMode_root hm hl).1
  have hF := isCdf_invgauss hm hl
  have hfy := invgaussPdf_pos hm hl (hp.trans (hx.trans_lt h))
  have h1 : ∫ _ in x..y, invgaussPdf mu lambda y ≤ ∫ t in x..y, invgaussPdf mu lambda t := by
    apply intervalIntegral.integral_mono_on h.le (by simp) hF.integrable.intervalIntegrable
    intro t ht
    exact invgaussPdf_antitone hm hl (hx.trans ht.1) (hx.trans h.le) ht.2
  rw [← hF.sub_eq, intervalIntegral.integral_const, smul_eq_mul] at h1
  have : 0 < (y - x) * invgaussPdf mu lambda y := mul_pos (by linarith) hfy
  linarith

theorem igF_lt_one {mu lambda x : ℝ} (hm : 0 < mu) (hl : 0 < lambda) : igF mu lambda x < 1 := by
  have hF := isCdf_invgauss hm hl
  have h1 := hF.mono (le_max_left x (igMode mu lambda))
  have h2 := igF_lt hm hl (le_max_right x (igMode mu lambda)) (lt_add_one _)
  have h3 := hF.le_one (Max.max x (igMode mu lambda) + 1)
  exact lt_of_le_of_lt h1 (lt_of_lt_of_le h2 h3)

/-- what the coded function returns, as a real iterate -/
theorem qinvgauss_igA {mu lambda u : ℝ} (hm : 0 < mu) (hl : 0 < lambda) (h0 : 0 < u) (h1 : u < 1) :
    ∃ n ≤ 100, qinvgauss (fin u) (fin mu) (fin lambda) = fin (igA mu lambda u n) ∧
      (∀ k < n, Lib.minpos ≤ |u - igF mu lambda (igA mu lambda u k)|) ∧
      (n = 100 ∨ |u - igF mu lambda (igA mu lambda u n)| < Lib.minpos) := by
  have hF := isCdf_invgauss hm hl
  obtain ⟨q, hq⟩ := hF.exists_eq h0 h1
  have hq0 : 0 < q := igF_pos_of h0 hq
  have e : ∀ x : ℝ, (Fl.abs (fin u - pinvgauss (fin x) (fin mu) (fin lambda) false) < minpos) ↔
      |u - igF mu lambda x| < Lib.minpos := by
    intro x
    rw [pinvgauss_fin hm hl, ifin_sub, minpos]
    simp [Fl.abs]
  obtain ⟨n, hn, h2, h3, h4⟩ := C21_qinvgauss_newton (fin u) (fin mu) (fin lambda)
  rw [invgauss_mode_fin hl, newton_iter_fin hm hl hq hq0] at h2
  refine ⟨n, hn, by rw [qinvgauss_unfold hm hl h0 h1, h2]; rfl, ?_, ?_⟩
  · intro k hk
    have := h3 k hk
    rw [invgauss_mode_fin hl, newton_iter_fin hm hl hq hq0, e] at this
    exact not_lt.1 this
  · rw [h2, e] at h4
    exact h4

/-! ### the theorems -/

/-- Exact arithmetic: `qinvgauss` is non-decreasing in the probability, for probabilities that are equal or differ by at
least the stopping tolerance (the smallest positive normal number), with the ends of the support at 0 and 1. Missing:
probabilities closer than the tolerance, for which the two iterations may stop after different numbers of steps. -/
theorem C16_qinvgauss_partial {mu lambda : ℝ} (hm : 0 < mu) (hl : 0 < lambda) :
    qinvgauss (fin 0) (fin mu) (fin lambda) = fin 0 ∧ qinvgauss (fin 1) (fin mu) (fin lambda) = pinf ∧
      ∀ u v : ℝ, 0 ≤ u → u = v ∨ u + Lib.minpos ≤ v → v ≤ 1 →
        qinvgauss (fin u) (fin mu) (fin lambda) ≤ qinvgauss (fin v) (fin mu) (fin lambda) := by
  have q0 : qinvgauss (fin 0) (fin mu) (fin lambda) = fin 0 := by
    simp [qinvgauss, invgauss_ok, prob_val_ok, not_lt.2 hm.le, not_lt.2 hl.le, hm.ne', hl.ne']
  have q1 : qinvgauss (fin 1) (fin mu) (fin lambda) = pinf := by
    simp [qinvgauss, invgauss_ok, prob_val_ok, not_lt.2 hm.le, not_lt.2 hl.le, hm.ne', hl.ne']
  have hF := isCdf_invgauss hm hl
  have hmp := Lib.minpos_pos
  have hord : ∀ {x y : ℝ}, igF mu lambda x < igF mu lambda y → x ≤ y := by
    intro x y h
    by_contra hc
    exact absurd (hF.mono (not_le.1 hc).le) (not_le.2 h)
  refine ⟨q0, q1, ?_⟩
  intro u v hu huv hv
  have hle : u ≤ v := by rcases huv with h | h <;> linarith
  rcases hu.eq_or_lt with rfl | hu
  · rw [q0]
    rcases hle.eq_or_lt with h | h
    · rw [← h, q0]; simp
    rcases hv.eq_or_lt with rfl | hv
    · rw [q1]; simp
    · obtain ⟨n, -, h2, -, -⟩ := qinvgauss_igA hm hl h hv
      rw [h2]
      have := (igA_pos hm hl h.le n).le
      simpa using this
  rcases hv.eq_or_lt with rfl | hv
  · rw [q1]
    rcases hle.eq_or_lt with rfl | h
    · rw [q1]; simp
    · obtain ⟨n, -, h2, -, -⟩ := qinvgauss_igA hm hl hu h
      rw [h2]; simp
  obtain ⟨n, hn, h2, -, h4⟩ := qinvgauss_igA hm hl hu (hle.trans_lt hv)
  rcases huv with rfl | huv
  · rw [h2]; simp
  obtain ⟨k, hk, h2', -, h4'⟩ := qinvgauss_igA hm hl (hu.trans_le hle) hv
  rw [h2, h2']
  suffices igA mu lambda u n ≤ igA mu lambda v k by simpa using this
  rcases le_total (igF mu lambda (igMode mu lambda)) u with h1 | h1
  · rcases le_or_gt n k with h | h
    · exact (igA_mono_u hm hl hu.le hle n).trans (igA_monotone hm hl (h1.trans hle) h)
    · have h5 := (abs_lt.1 (h4'.resolve_left (by omega))).2
      have h6 := (igA_right hm hl h1 n).2
      exact hord (by linarith)
  rcases le_total v (igF mu lambda (igMode mu lambda)) with h3 | h3
  · rcases le_or_gt k n with h | h
    · exact (igA_antitone hm hl hu.le h1 h).trans (igA_mono_u hm hl hu.le hle k)
    · have h5 := (abs_lt.1 (h4.resolve_left (by omega))).1
      have h6 := (igA_left hm hl (hu.le.trans hle) h3 k).2.2.1
      exact hord (by linarith)
  · exact (igA_left hm hl hu.le h1 n).2.1.trans (igA_right hm hl h3 k).1

/-- Exact arithmetic: no probability has a computed quantile below the mode divided by 201. -/
theorem C21_qinvgauss_floor {mu lambda u : ℝ} (hm : 0 < mu) (hl : 0 < lambda) (h0 : 0 < u) (h1 : u < 1) :
    ∃ x m : ℝ, qinvgauss (fin u) (fin mu) (fin lambda) = fin x ∧
      invgauss_mode (fin mu) (fin mu / fin lambda) = fin m ∧ 0 < m ∧ m / 201 ≤ x := by
  have hp := (igMode_root hm hl).1
  obtain ⟨n, hn, h2, -, -⟩ := qinvgauss_igA hm hl h0 h1
  refine ⟨_, _, h2, invgauss_mode_fin hl, hp, ?_⟩
  rcases le_total (igF mu lambda (igMode mu lambda)) u with h | h
  · have := (igA_right hm hl h n).1
    linarith
  · obtain ⟨a, -, -, d⟩ := igA_left hm hl h0.le h n
    have hn' : (n : ℝ) ≤ 100 := by exact_mod_cast hn
    have d2 : 1 / igA mu lambda u n ≤ 201 / igMode mu lambda := by
      refine d.trans ?_
      gcongr
      linarith
    rw [div_le_div_iff₀ a hp] at d2
    linarith

/-- Exact arithmetic: the claim `p(q(u)) = u` fails for `qinvgauss` at every parameter. A hundred steps from the mode
do not reach the far tails: the values `p(q(u))` stay within a closed interval inside `(0, 1)`. -/
theorem C15_qinvgauss_violated {mu lambda : ℝ} (hm : 0 < mu) (hl : 0 < lambda) :
    (∃ a b : ℝ, 0 < a ∧ b < 1 ∧ ∀ u : ℝ, 0 < u → u < 1 → ∃ v : ℝ,
      pinvgauss (qinvgauss (fin u) (fin mu) (fin lambda)) (fin mu) (fin lambda) false = fin v ∧ a ≤ v ∧ v ≤ b) ∧
    ¬ CdfOfQuant (fun x => pinvgauss x (fin mu) (fin lambda)) (fun u => qinvgauss u (fin mu) (fin lambda)) := by
  have hp := (igMode_root hm hl).1
  have hF := isCdf_invgauss hm hl
  have key : ∃ a b : ℝ, 0 < a ∧ b < 1 ∧ ∀ u : ℝ, 0 < u → u < 1 → ∃ v : ℝ,
      pinvgauss (qinvgauss (fin u) (fin mu) (fin lambda)) (fin mu) (fin lambda) false = fin v ∧ a ≤ v ∧ v ≤ b := by
    refine ⟨igF mu lambda (igMode mu lambda / 201), igF mu lambda (igA mu lambda 1 100), ?_, igF_lt_one hm hl, ?_⟩
    · have hx : 0 < igMode mu lambda / 201 / 2 := by positivity
      have hlt : igMode mu lambda / 201 / 2 ≤ igMode mu lambda / 201 := by linarith
      have h1 : ∫ _ in (igMode mu lambda / 201 / 2)..(igMode mu lambda / 201),
          invgaussPdf mu lambda (igMode mu lambda / 201 / 2) ≤
          ∫ t in (igMode mu lambda / 201 / 2)..(igMode mu lambda / 201), invgaussPdf mu lambda t := by
        apply intervalIntegral.integral_mono_on hlt (by simp) hF.integrable.intervalIntegrable
        intro t ht
        exact invgaussPdf_monotone hm hl ⟨hx, by linarith⟩ ⟨hx.trans_le ht.1, by linarith [ht.2]⟩ ht.1
      rw [← hF.sub_eq, intervalIntegral.integral_const, smul_eq_mul] at h1
      have h2 : 0 < (igMode mu lambda / 201 - igMode mu lambda / 201 / 2) *
          invgaussPdf mu lambda (igMode mu lambda / 201 / 2) :=
        mul_pos (by linarith) (invgaussPdf_pos hm hl hx)
      have h3 := hF.nonneg' (igMode mu lambda / 201 / 2)
      exact lt_of_lt_of_le (by linarith) (h1.trans (sub_le_self _ h3))
    · intro u h0 h1
      obtain ⟨x, m, hx, hm', -, hfl⟩ := C21_qinvgauss_floor hm hl h0 h1
      rw [invgauss_mode_fin hl] at hm'
      obtain ⟨n, hn, h2, -, -⟩ := qinvgauss_igA hm hl h0 h1
      refine ⟨igF mu lambda x, by rw [hx, pinvgauss_fin hm hl], ?_, ?_⟩
      · exact hF.mono (by rw [fin.inj hm']; exact hfl)
      · rw [hx] at h2
        rw [fin.inj h2]
        have h3 : igF mu lambda (igMode mu lambda) ≤ 1 := (igF_lt_one hm hl).le
        exact hF.mono ((igA_mono_u hm hl h0.le h1.le n).trans (igA_monotone hm hl h3 hn))
  refine ⟨key, fun hc => ?_⟩
  obtain ⟨a, b, ha, hb, h⟩ := key
  have h0 : 0 < min (a / 2) (1 / 2) := lt_min (by linarith) (by norm_num)
  have h1 : min (a / 2) (1 / 2) < (1 : ℝ) := lt_of_le_of_lt (min_le_right _ _) (by norm_num)
  obtain ⟨v, hv, hav, -⟩ := h _ h0 h1
  have := hc _ h0 h1
  simp only at this
  rw [hv] at this
  have e := fin.inj this
  have := min_le_left (a / 2) (1 / 2 : ℝ)
  linarith

/-- Exact arithmetic: either the value meets the stopping test, or its distance to the quantile `q` is at most the
distance of the mode `m`, times the 100th power of `1 - f(q) / f(m)`, `f` the density. -/
theorem C21_qinvgauss_error {mu lambda u : ℝ} (hm : 0 < mu) (hl : 0 < lambda) (h0 : 0 < u) (h1 : u < 1) :
    ∃ q x m dq dm v : ℝ, pinvgauss (fin q) (fin mu) (fin lambda) false = fin u ∧
      invgauss_mode (fin mu) (fin mu / fin lambda) = fin m ∧
      dinvgauss (fin q) (fin mu) (fin lambda) false = fin dq ∧ dinvgauss (fin m) (fin mu) (fin lambda) false = fin dm ∧
      0 < dq ∧ dq ≤ dm ∧
      qinvgauss (fin u) (fin mu) (fin lambda) = fin x ∧ pinvgauss (fin x) (fin mu) (fin lambda) false = fin v ∧
      (|u - v| < Lib.minpos ∨ |x - q| ≤ (1 - dq / dm) ^ 100 * |m - q|) := by
  have hp := (igMode_root hm hl).1
  have hF := isCdf_invgauss hm hl
  obtain ⟨q, hq⟩ := hF.exists_eq h0 h1
  have hq0 : 0 < q := igF_pos_of h0 hq
  set m := igMode mu lambda with hmdef
  have hfq := invgaussPdf_pos hm hl hq0
  have hfm := invgaussPdf_pos hm hl hp
  obtain ⟨-, d1, -⟩ := C08_dinvgauss hm hl q (Set.mem_Ioi.2 hq0)
  obtain ⟨-, d2, -⟩ := C08_dinvgauss hm hl m (Set.mem_Ioi.2 hp)
  have hqm : invgaussPdf mu lambda q ≤ invgaussPdf mu lambda m := by
    rcases le_total m q with h | h
    · exact invgaussPdf_antitone hm hl self_mem_Ici h h
    · exact invgaussPdf_monotone hm hl ⟨hq0, h⟩ ⟨hp, le_rfl⟩ h
  obtain ⟨n, hn, h2, -, h4⟩ := qinvgauss_igA hm hl h0 h1
  refine ⟨q, _, m, _, _, _, by rw [pinvgauss_fin hm hl]; exact congrArg fin hq, invgauss_mode_fin hl, d1, d2, hfq, hqm,
    h2, pinvgauss_fin hm hl _, ?_⟩
  rcases h4 with rfl | h4
  swap
  · exact Or.inl h4
  right
  set r := 1 - invgaussPdf mu lambda q / invgaussPdf mu lambda m with hr
  have hr0 : 0 ≤ r := by
    rw [hr, sub_nonneg]; exact (div_le_one hfm).2 hqm
  rcases le_total m q with h | h
  · have step : ∀ k, igA mu lambda u k ≤ q ∧ q - igA mu lambda u k ≤ r ^ k * (q - m) := by
      intro k
      induction k with
      | zero => exact ⟨h, by simp [igA, hmdef]⟩
      | succ k ih =>
        obtain ⟨a, b⟩ := ih
        have hmx : m ≤ igA mu lambda u k := ((igN_iter hm hl hq hq0 k).1 h).1
        set x := igA mu lambda u k with hx
        have hfx := invgaussPdf_pos hm hl (hp.trans_le hmx)
        rw [igA_succ]
        refine ⟨(igN_right hm hl hq hmx a).2, ?_⟩
        have hi : ∫ _ in x..q, invgaussPdf mu lambda q ≤ ∫ t in x..q, invgaussPdf mu lambda t := by
          apply intervalIntegral.integral_mono_on a (by simp) hF.integrable.intervalIntegrable
          intro t ht
          exact invgaussPdf_antitone hm hl (hmx.trans ht.1) h ht.2
        rw [← hF.sub_eq, intervalIntegral.integral_const, smul_eq_mul] at hi
        have hfxm : invgaussPdf mu lambda x ≤ invgaussPdf mu lambda m :=
          invgaussPdf_antitone hm hl self_mem_Ici hmx hmx
        have h5 : (q - x) * (invgaussPdf mu lambda q / invgaussPdf mu lambda m) ≤
            (u - igF mu lambda x) / invgaussPdf mu lambda x := by
          rw [le_div_iff₀ hfx]
          calc (q - x) * (invgaussPdf mu lambda q / invgaussPdf mu lambda m) * invgaussPdf mu lambda x
              ≤ (q - x) * (invgaussPdf mu lambda q / invgaussPdf mu lambda m) * invgaussPdf mu lambda m := by
                apply mul_le_mul_of_nonneg_left hfxm (mul_nonneg (by linarith) (by positivity))
            _ = (q - x) * invgaussPdf mu lambda q := by field_simp
            _ ≤ _ := by rw [← hq]; exact hi
        have h6 : q - igN mu lambda u x ≤ r * (q - x) := by
          rw [igN, hr]; linarith
        refine h6.trans ?_
        rw [pow_succ, mul_comm (r ^ k), mul_assoc]
        exact mul_le_mul_of_nonneg_left b hr0
    have := step 100
    rw [abs_sub_comm, abs_sub_comm m, abs_of_nonneg (by linarith [this.1]), abs_of_nonneg (by linarith)]
    exact this.2
  · have step : ∀ k, q ≤ igA mu lambda u k ∧ igA mu lambda u k - q ≤ r ^ k * (m - q) := by
      intro k
      induction k with
      | zero => exact ⟨h, by simp [igA, hmdef]⟩
      | succ k ih =>
        obtain ⟨a, b⟩ := ih
        have hmx : igA mu lambda u k ≤ m := ((igN_iter hm hl hq hq0 k).2 h).1
        set x := igA mu lambda u k with hx
        have hfx := invgaussPdf_pos hm hl (hq0.trans_le a)
        rw [igA_succ]
        refine ⟨(igN_left hm hl hq hq0 hmx a).2, ?_⟩
        have hi : ∫ _ in q..x, invgaussPdf mu lambda q ≤ ∫ t in q..x, invgaussPdf mu lambda t := by
          apply intervalIntegral.integral_mono_on a (by simp) hF.integrable.intervalIntegrable
          intro t ht
          exact invgaussPdf_monotone hm hl ⟨hq0, h⟩ ⟨hq0.trans_le ht.1, ht.2.trans hmx⟩ ht.1
        rw [← hF.sub_eq, intervalIntegral.integral_const, smul_eq_mul] at hi
        have hfxm : invgaussPdf mu lambda x ≤ invgaussPdf mu lambda m :=
          invgaussPdf_monotone hm hl ⟨hq0.trans_le a, hmx⟩ ⟨hp, le_rfl⟩ hmx
        have h5 : (x - q) * (invgaussPdf mu lambda q / invgaussPdf mu lambda m) ≤
            (igF mu lambda x - u) / invgaussPdf mu lambda x := by
          rw [le_div_iff₀ hfx]
          calc (x - q) * (invgaussPdf mu lambda q / invgaussPdf mu lambda m) * invgaussPdf mu lambda x
              ≤ (x - q) * (invgaussPdf mu lambda q / invgaussPdf mu lambda m) * invgaussPdf mu lambda m := by
                apply mul_le_mul_of_nonneg_left hfxm (mul_nonneg (by linarith) (by positivity))
            _ = (x - q) * invgaussPdf mu lambda q := by field_simp
            _ ≤ _ := by rw [← hq]; exact hi
        have e : (u - igF mu lambda x) / invgaussPdf mu lambda x = -((igF mu lambda x - u) / invgaussPdf mu lambda x) := by
          rw [← neg_div, neg_sub]
        have h6 : igN mu lambda u x - q ≤ r * (x - q) := by
          rw [igN, hr, e]; linarith
        refine h6.trans ?_
        rw [pow_succ, mul_comm (r ^ k), mul_assoc]
        exact mul_le_mul_of_nonneg_left b hr0
    have := step 100
    rw [abs_of_nonneg (by linarith [this.1]), abs_of_nonneg (by linarith)]
    exact this.2

end Stats

namespace Stats.ExamplesC21B
open Fl Spec
open scoped Stats.Exact

/-- mu = 3, lambda = 2: the quartiles are in order -/
example : qinvgauss (fin (1 / 4)) (fin 3) (fin 2) ≤ qinvgauss (fin (3 / 4)) (fin 3) (fin 2) :=
  (C16_qinvgauss_partial (mu := 3) (lambda := 2) (by norm_num) (by norm_num)).2.2 (1 / 4) (3 / 4) (by norm_num)
    (Or.inr (by
      have : (1 : ℝ) / 2 ^ 1022 ≤ 1 / 2 ^ 1 := one_div_pow_le_one_div_pow_of_le (by norm_num) (by norm_num)
      show (1 : ℝ) / 4 + 1 / 2 ^ 1022 ≤ 3 / 4
      linarith)) (by norm_num)

/-- mu = 3, lambda = 2, a tiny probability: the value is not below the mode over 201 -/
example : ∃ x m : ℝ, qinvgauss (fin (1 / 10 ^ 300)) (fin 3) (fin 2) = fin x ∧
      invgauss_mode (fin 3) (fin 3 / fin 2) = fin m ∧ 0 < m ∧ m / 201 ≤ x :=
  C21_qinvgauss_floor (by norm_num) (by norm_num) (by positivity)
    (by rw [div_lt_one (by positivity)]; exact one_lt_pow₀ (by norm_num) (by norm_num))

/-- mu = 3, lambda = 2: some probability is not recovered -/
example : ¬ CdfOfQuant (fun x => pinvgauss x (fin 3) (fin 2)) (fun u => qinvgauss u (fin 3) (fin 2)) :=
  (C15_qinvgauss_violated (by norm_num) (by norm_num)).2

/-- mu = 1, lambda = 2, median -/
example : ∃ q x m dq dm v : ℝ, pinvgauss (fin q) (fin 1) (fin 2) false = fin (1 / 2) ∧
      invgauss_mode (fin 1) (fin 1 / fin 2) = fin m ∧
      dinvgauss (fin q) (fin 1) (fin 2) false = fin dq ∧ dinvgauss (fin m) (fin 1) (fin 2) false = fin dm ∧
      0 < dq ∧ dq ≤ dm ∧
      qinvgauss (fin (1 / 2)) (fin 1) (fin 2) = fin x ∧ pinvgauss (fin x) (fin 1) (fin 2) false = fin v ∧
      (|1 / 2 - v| < Lib.minpos ∨ |x - q| ≤ (1 - dq / dm) ^ 100 * |m - q|) :=
  C21_qinvgauss_error (by norm_num) (by norm_num) (by norm_num) (by norm_num)

end Stats.ExamplesC21B

import Verif.Props.C14
import Verif.Lemmas.Mono
import Verif.Spec.MonoInv
import Verif.Props.C16D
import Verif.Props.C20D

/-!
# C16 with rounding

The quantile functions are monotone in the probability in every arithmetic whose library functions are
monotone (`MonoLib`, `MonoInv`), among them binary64 with correctly rounded functions. The probabilities are
any real numbers in `[0,1]`, so in particular all representable ones.
-/

set_option linter.unusedSectionVars false
open Classical
namespace Stats
open Fl Spec
variable [Lib]

/-- A quantile function that is monotone inside and bounded by its end values is monotone. -/
theorem monoQuant_mk {q : Fl → Fl} {lo hi : Fl} (f : ℝ → Fl) (h0 : q (fin 0) = lo) (h1 : q (fin 1) = hi)
    (hf : ∀ u : ℝ, 0 < u → u < 1 → q (fin u) = f u)
    (hm : ∀ u v : ℝ, 0 < u → u ≤ v → v < 1 → f u ≤ f v)
    (hlo : ∀ u : ℝ, 0 < u → u < 1 → lo ≤ f u) (hhi : ∀ u : ℝ, 0 < u → u < 1 → f u ≤ hi)
    (hl : lo ≤ lo) (hh : hi ≤ hi) (hlh : lo ≤ hi) : MonoQuant q lo hi := by
  refine ⟨h0, h1, fun u v hu huv hv => ?_⟩
  rcases hu.eq_or_lt with rfl | hu
  · rcases huv.eq_or_lt with rfl | hv0
    · rw [h0]; exact hl
    · rcases hv.eq_or_lt with rfl | hv
      · rw [h0, h1]; exact hlh
      · rw [h0, hf v hv0 hv]; exact hlo v hv0 hv
  · rcases hv.eq_or_lt with rfl | hv
    · rcases huv.eq_or_lt with rfl | hu1
      · rw [h1]; exact hh
      · rw [h1, hf u hu hu1]; exact hhi u hu hu1
    · rw [hf u hu (huv.trans_lt hv), hf v (hu.trans_le huv) hv]; exact hm u v hu huv hv

/-- For an unbounded support, monotone inside is enough: `x ≤ x` says that `x` is not NaN. -/
theorem monoQuant_line {q : Fl → Fl} (f : ℝ → Fl) (h0 : q (fin 0) = ninf) (h1 : q (fin 1) = pinf)
    (hf : ∀ u : ℝ, 0 < u → u < 1 → q (fin u) = f u)
    (hm : ∀ u v : ℝ, 0 < u → u ≤ v → v < 1 → f u ≤ f v) : MonoQuant q ninf pinf := by
  have hn : ∀ u : ℝ, 0 < u → u < 1 → f u ≠ nan := fun u h h' hc => by
    have := hm u u h le_rfl h'; rw [hc] at this; simp at this
  exact monoQuant_mk f h0 h1 hf hm (fun u h h' => ninf_le (hn u h h')) (fun u h h' => le_pinf (hn u h h'))
    (by simp) (by simp) (by simp)

theorem monoQuant_half {q : Fl → Fl} (f : ℝ → Fl) (h0 : q (fin 0) = fin 0) (h1 : q (fin 1) = pinf)
    (hf : ∀ u : ℝ, 0 < u → u < 1 → q (fin u) = f u)
    (hm : ∀ u v : ℝ, 0 < u → u ≤ v → v < 1 → f u ≤ f v)
    (hp : ∀ u : ℝ, 0 < u → u < 1 → NN (f u)) : MonoQuant q (fin 0) pinf := by
  have hn : ∀ u : ℝ, 0 < u → u < 1 → f u ≠ nan := fun u h h' hc => by
    have := hm u u h le_rfl h'; rw [hc] at this; simp at this
  exact monoQuant_mk f h0 h1 hf hm (fun u h h' => nn_le.2 ⟨hn u h h', hp u h h'⟩)
    (fun u h h' => le_pinf (hn u h h')) (by simp) (by simp) (by simp)

/-- `1 - u` -/
theorem one_sub_anti {u v : ℝ} (hu : 0 ≤ u) (huv : u ≤ v) (hv : v ≤ 1) :
    ∃ a b : ℝ, (1 : Fl) - fin v = fin a ∧ (1 : Fl) - fin u = fin b ∧ 0 ≤ a ∧ a ≤ b ∧ b ≤ 1 := by
  obtain ⟨a, ha, h0, -⟩ := Btw.one_sub (btw_fin (hu.trans huv) hv)
  obtain ⟨b, hb, -, h1⟩ := Btw.one_sub (btw_fin hu (huv.trans hv))
  have h := const_sub_anti 1 (fin_le_fin.2 huv)
  rw [one_eq] at ha hb
  rw [ha, hb, fin_le_fin] at h
  exact ⟨a, b, by rw [one_eq, ha], by rw [one_eq, hb], h0, h, h1⟩

theorem div_mono_anti {u v a b : ℝ} (hu : 0 < u) (huv : u ≤ v) (ha : 0 ≤ a) (hab : a ≤ b) :
    fin u / fin b ≤ fin v / fin a := by
  have hv : 0 < v := hu.trans_le huv
  rw [fin_div_fin, fin_div_fin]
  rcases ha.eq_or_lt with rfl | ha
  · rw [if_pos rfl, if_neg hv.ne', if_pos hv]
    apply le_pinf
    split_ifs with h1 h2
    · exact absurd h2 hu.ne'
    · simp
    · exact ofE_ne_nan _
  · rw [if_neg ha.ne', if_neg (ha.trans_le hab).ne', ofE_le_ofE]
    exact Lib.rnd_mono (by gcongr)

theorem two_fl : (2 : Fl) = fin 2 := by simp

theorem neg_neg_fl (x : Fl) : - -x = x := by cases x <;> simp

theorem ofE_neg' (e : EReal) : ofE (-e) = -ofE e := by
  induction e using EReal.rec with
  | bot => simp
  | top => simp
  | coe y => rw [← EReal.coe_neg, ofE_coe, ofE_coe, neg_fin]

section
variable [MonoLib]

theorem C16_exp_rounded {rate : ℝ} (h : 0 < rate) : MonoQuant (fun u => qexp u (fin rate)) (fin 0) pinf := by
  refine monoQuant_half (fun u => -log (1 - fin u) / fin rate) ?_ ?_ ?_ ?_ ?_
  · simp [qexp, exp_ok, prob_val_ok, not_lt.2 h.le]
  · simp [qexp, exp_ok, prob_val_ok, not_lt.2 h.le]
  · intro u h0 h1
    simp [qexp, exp_ok, prob_val_ok, not_lt.2 h.le, h0.le, h1.le, h0.ne', h1.ne, qexp_compute]
  · intro u v h0 huv h1
    obtain ⟨a, b, ha, hb, h2, h3, h4⟩ := one_sub_anti h0.le huv h1.le
    simp only [ha, hb]
    exact div_mono h (neg_anti (log_mono (fin_le_fin.2 h2) (fin_le_fin.2 h3)))
  · intro u h0 h1
    obtain ⟨a, b, ha, hb, h2, h3, h4⟩ := one_sub_anti h0.le le_rfl h1.le
    simp only [ha]
    refine NN.div ?_ (nn_fin h.le)
    have := log_mono (fin_le_fin.2 h2) (fin_le_fin.2 (h3.trans h4))
    have l1 : log (fin 1) = fin 0 := by rw [log_fin_pos one_pos, Lib.log_one]; simp
    rw [l1] at this
    have := neg_anti this
    rw [neg_fin, neg_zero] at this
    exact (nn_le.1 this).2

theorem C16_logis_rounded (mu : ℝ) {sigma : ℝ} (h : 0 < sigma) :
    MonoQuant (fun u => qlogis u (fin mu) (fin sigma)) ninf pinf := by
  refine monoQuant_line (fun u => fin mu + fin sigma * log (fin u / (1 - fin u))) ?_ ?_ ?_ ?_
  · simp [qlogis, logis_ok, prob_val_ok, h.ne', not_lt.2 h.le]
  · simp [qlogis, logis_ok, prob_val_ok, h.ne', not_lt.2 h.le]
  · intro u h0 h1
    simp [qlogis, logis_ok, prob_val_ok, h.ne', not_lt.2 h.le, h0.le, h1.le, h0.ne', h1.ne, qlogis_compute]
  · intro u v h0 huv h1
    obtain ⟨a, b, ha, hb, h2, h3, h4⟩ := one_sub_anti h0.le huv h1.le
    simp only [ha, hb]
    have hd := div_mono_anti h0 huv h2 h3
    refine add_mono mu (mul_mono h (log_mono ?_ hd))
    refine nn_le.2 ⟨fun hc => ?_, NN.div (nn_fin h0.le) (nn_fin (h2.trans h3))⟩
    rw [hc] at hd; simp at hd

/-- The largest finite value of `sigma` is excluded only through `hs`: `sigma` is a representable number. -/
theorem C16_laplace_rounded (mu : ℝ) {sigma : ℝ} (h : 0 < sigma) (hs : Rep sigma) :
    MonoQuant (fun u => qlaplace u (fin mu) (fin sigma)) ninf pinf := by
  have key : ∀ u : ℝ, 0 < u → u < 1 → ∃ d : ℝ, fin u - half = fin d ∧ |d| ≤ 1 / 2 := by
    intro u h0 h1
    have : Btw (-(1 / 2)) (1 / 2) (fin u - half) := by
      rw [half, fin_sub_fin]
      exact btw_rnd (rep_neg rep_oh) rep_oh (by linarith) (by linarith)
    obtain ⟨d, hd, h2, h3⟩ := this
    exact ⟨d, hd, abs_le.2 ⟨h2, h3⟩⟩
  have sp : fin sigma * fin 1 = fin sigma := by
    rw [fin_mul_fin, mul_one, show Lib.rnd sigma = _ from hs, ofE_coe]
  have sm : fin sigma * fin (-1) = fin (-sigma) := by
    rw [fin_mul_fin, mul_neg_one, show Lib.rnd (-sigma) = _ from rep_neg hs, ofE_coe]
  have dm : ∀ d : ℝ, |d| ≤ 1 / 2 → ∃ e : ℝ, (1 : Fl) - 2 * fin |d| = fin e ∧ 0 ≤ e ∧ e ≤ 1 := by
    intro d hd
    have : Btw 0 1 (2 * fin |d|) := by
      rw [two_fl, fin_mul_fin]
      exact btw_rnd rep_zero rep_one (by positivity) (by linarith)
    exact this.one_sub
  have lg : ∀ e : ℝ, 0 ≤ e → e ≤ 1 → log (fin e) ≤ fin 0 := by
    intro e h0 h1
    have l1 : log (fin 1) = fin 0 := by rw [log_fin_pos one_pos, Lib.log_one]; simp
    rw [← l1]; exact log_mono (fin_le_fin.2 h0) (fin_le_fin.2 h1)
  have mulneg : ∀ x : Fl, fin (-sigma) * x = -(fin sigma * x) := by
    intro x
    cases x <;> simp [fin_mul_fin, fin_mul_pinf, fin_mul_ninf, h, h.ne', h.le, not_lt.2 h.le, Lib.rnd_neg, neg_mul, ofE_neg']
  let g : ℝ → Fl := fun d => fin mu - fin sigma * sgn (fin d) * log (1 - 2 * fin |d|)
  have gpos : ∀ d : ℝ, 0 < d → g d = fin mu - fin sigma * log (1 - 2 * fin |d|) := by
    intro d hd; simp only [g, sgn, if_pos hd, sp]
  have gneg : ∀ d : ℝ, d < 0 → g d = fin mu + fin sigma * log (1 - 2 * fin |d|) := by
    intro d hd
    simp only [g, sgn, if_neg hd.le.not_gt, if_pos hd, sm, mulneg]
    rw [sub_def, neg_neg_fl]
  have gzero : g 0 = fin mu - fin 0 := by
    have : (1 : Fl) - 2 * fin |0| = fin 1 := by
      rw [abs_zero, two_fl, fin_mul_fin, mul_zero]; simp [one_eq, fin_sub_fin]
    simp only [g, this]
    rw [log_fin_pos one_pos, Lib.log_one]
    simp [sgn, fin_mul_fin]
  have mul0 : fin sigma * fin 0 = fin 0 := by rw [fin_mul_fin, mul_zero]; simp
  have anti : ∀ d e : ℝ, |d| ≤ |e| → |e| ≤ 1 / 2 → log (1 - 2 * fin |e|) ≤ log (1 - 2 * fin |d|) := by
    intro d e hde he
    obtain ⟨x, hx, hx0, hx1⟩ := dm e he
    obtain ⟨y, hy, hy0, hy1⟩ := dm d (hde.trans he)
    have : (1 : Fl) - 2 * fin |e| ≤ 1 - 2 * fin |d| := by
      rw [one_eq, two_fl]
      exact const_sub_anti 1 (mul_mono two_pos (fin_le_fin.2 hde))
    rw [hx, hy] at this ⊢
    exact log_mono (fin_le_fin.2 hx0) this
  have gm : ∀ d e : ℝ, |d| ≤ 1 / 2 → |e| ≤ 1 / 2 → d ≤ e → g d ≤ g e := by
    intro d e hd he hde
    have up : ∀ e : ℝ, |e| ≤ 1 / 2 → 0 ≤ e → fin mu - fin 0 ≤ g e := by
      intro e he h0
      rcases h0.eq_or_lt with rfl | h0
      · rw [gzero]; exact const_sub_anti mu (by simp)
      · rw [gpos e h0]
        apply const_sub_anti
        obtain ⟨x, hx, hx0, hx1⟩ := dm e he
        rw [hx]
        have := mul_mono h (lg x hx0 hx1)
        rwa [mul0] at this
    have dn : ∀ e : ℝ, |e| ≤ 1 / 2 → e ≤ 0 → g e ≤ fin mu - fin 0 := by
      intro e he h0
      rcases h0.eq_or_lt with rfl | h0
      · rw [gzero]; exact const_sub_anti mu (by simp)
      · rw [gneg e h0, sub_def (fin mu), neg_fin, neg_zero]
        apply add_mono
        obtain ⟨x, hx, hx0, hx1⟩ := dm e he
        rw [hx]
        have := mul_mono h (lg x hx0 hx1)
        rwa [mul0] at this
    rcases le_or_gt d 0 with hd0 | hd0
    · rcases le_or_gt 0 e with he0 | he0
      · exact le_trans' (dn d hd hd0) (up e he he0)
      · rw [gneg e he0, gneg d (hde.trans_lt he0)]
        refine add_mono mu (mul_mono h (anti e d ?_ hd))
        rw [abs_of_neg he0, abs_of_neg (hde.trans_lt he0)]; linarith
    · rw [gpos d hd0, gpos e (hd0.trans_le hde)]
      refine const_sub_anti mu (mul_mono h (anti d e ?_ he))
      rw [abs_of_pos hd0, abs_of_pos (hd0.trans_le hde)]; exact hde
  refine monoQuant_line (fun u => fin mu - fin sigma * sgn (fin u - half) * log (1 - 2 * abs (fin u - half)))
    ?_ ?_ ?_ ?_
  · simp [qlaplace, laplace_ok, prob_val_ok, h.ne', not_lt.2 h.le]
  · simp [qlaplace, laplace_ok, prob_val_ok, h.ne', not_lt.2 h.le]
  · intro u h0 h1
    simp [qlaplace, laplace_ok, prob_val_ok, h.ne', not_lt.2 h.le, h0.le, h1.le, h0.ne', h1.ne, qlaplace_compute]
  · intro u v h0 huv h1
    obtain ⟨d, hd, hd'⟩ := key u h0 (huv.trans_lt h1)
    obtain ⟨e, he, he'⟩ := key v (h0.trans_le huv) h1
    have hde : d ≤ e := by
      have := sub_mono (1 / 2) (fin_le_fin.2 huv)
      rw [half] at hd he
      rwa [hd, he, fin_le_fin] at this
    simp only [hd, he]
    exact gm d e hd' he' hde

end

theorem erfInv_mono_fl [MonoInv] {x y : ℝ} (hx : -1 ≤ x) (h : x ≤ y) (hy : y ≤ 1) :
    erfInv (fin x) ≤ erfInv (fin y) := by
  have nn : ∀ z : ℝ, -1 ≤ z → z ≤ 1 → erfInv (fin z) ≠ nan := by
    intro z h1 h2
    rw [erfInv, if_neg (by push Not; exact ⟨h1, h2⟩)]
    split_ifs <;> simp
    exact ofE_ne_nan _
  rcases hx.eq_or_lt with rfl | hx
  · rw [show erfInv (fin (-1)) = ninf by simp [erfInv]]
    exact ninf_le (nn y h hy)
  · rcases hy.eq_or_lt with rfl | hy
    · rw [show erfInv (fin 1) = pinf by simp [erfInv]; norm_num]
      exact le_pinf (nn x hx.le h)
    · have hx1 : x < 1 := h.trans_lt hy
      have hy1 : -1 < y := hx.trans_le h
      rw [erfInv, if_neg (by push Not; exact ⟨hx.le, hx1.le⟩), if_neg hx.ne', if_neg hx1.ne,
        erfInv, if_neg (by push Not; exact ⟨hy1.le, hy.le⟩), if_neg hy1.ne', if_neg hy.ne, ofE_le_ofE]
      exact MonoInv.erfInv_mono ⟨hx, hx1⟩ ⟨hy1, hy⟩ h

/-- `hs`: the product of √2 and `sigma` does not overflow or vanish; see `C16_norm_violated`. -/
theorem C16_norm_rounded [MonoInv] (mu : ℝ) {sigma s : ℝ} (h : 0 < sigma) (h2 : 0 < s)
    (hs : Lib.rnd (Lib.sqrt2 * sigma) = s) :
    MonoQuant (fun u => qnorm u (fin mu) (fin sigma)) ninf pinf := by
  refine monoQuant_line (fun u => fin mu + SQRT2 * fin sigma * erfInv (2 * fin u - 1)) ?_ ?_ ?_ ?_
  · simp [qnorm, norm_ok, prob_val_ok, h.ne', not_lt.2 h.le]
  · simp [qnorm, norm_ok, prob_val_ok, h.ne', not_lt.2 h.le]
  · intro u h0 h1
    simp [qnorm, norm_ok, prob_val_ok, h.ne', not_lt.2 h.le, h0.le, h1.le, h0.ne', h1.ne, qnorm_compute]
  · intro u v h0 huv h1
    have key : ∀ u : ℝ, 0 < u → u < 1 → Btw (-1) 1 (2 * fin u - 1) := by
      intro u h0 h1
      have : Btw 0 2 (2 * fin u) := by
        rw [two_fl, fin_mul_fin]
        exact btw_rnd rep_zero rep_two (by positivity) (by linarith)
      have e1 : Btw 1 1 (1 : Fl) := by rw [one_eq]; exact btw_fin le_rfl le_rfl
      have := Btw.sub this e1 (by simpa using rep_neg rep_one) (by norm_num)
      exact this.mono (by norm_num) (by norm_num)
    obtain ⟨x, hx, hx1, -⟩ := key u h0 (huv.trans_lt h1)
    obtain ⟨y, hy, -, hy1⟩ := key v (h0.trans_le huv) h1
    have hxy : x ≤ y := by
      have := sub_mono 1 (mul_mono two_pos (fin_le_fin.2 huv))
      rw [two_fl, one_eq] at hx hy
      rwa [hx, hy, fin_le_fin] at this
    simp only [hx, hy]
    rw [SQRT2, fin_mul_fin, hs, ofE_coe]
    exact add_mono mu (mul_mono h2 (erfInv_mono_fl hx1 hxy hy1))

theorem C16_lnorm_rounded [MonoLib] [MonoInv] (mu : ℝ) {sigma s : ℝ} (h : 0 < sigma) (h2 : 0 < s)
    (hs : Lib.rnd (Lib.sqrt2 * sigma) = s) :
    MonoQuant (fun u => qlnorm u (fin mu) (fin sigma)) (fin 0) pinf := by
  obtain ⟨n0, n1, nm⟩ := C16_norm_rounded mu h h2 hs
  have e : ∀ u : ℝ, 0 ≤ u → u ≤ 1 → qlnorm (fin u) (fin mu) (fin sigma) = exp (qnorm (fin u) (fin mu) (fin sigma)) := by
    intro u h0 h1
    simp [qlnorm, lnorm_ok, prob_val_ok, not_lt.2 h.le, h0, h1, qlnorm_compute]
  refine ⟨?_, ?_, fun u v h0 huv h1 => ?_⟩
  · show qlnorm (fin 0) (fin mu) (fin sigma) = _
    rw [e 0 le_rfl zero_le_one]; simp only at n0; rw [n0]; rfl
  · show qlnorm (fin 1) (fin mu) (fin sigma) = _
    rw [e 1 zero_le_one le_rfl]; simp only at n1; rw [n1]; rfl
  · show qlnorm (fin u) (fin mu) (fin sigma) ≤ qlnorm (fin v) (fin mu) (fin sigma)
    rw [e u h0 (huv.trans h1), e v (h0.trans huv) h1]
    exact exp_mono (nm u v h0 huv h1)

theorem C16_cauchy_rounded [MonoTan] (mu : ℝ) {sigma : ℝ} (h : 0 < sigma) (hp : Rep (Lib.pi / 2)) :
    MonoQuant (fun u => qcauchy u (fin mu) (fin sigma)) ninf pinf := by
  refine monoQuant_line (fun u => fin mu + fin sigma * tan (PI * (fin u - half))) ?_ ?_ ?_ ?_
  · simp [qcauchy, cauchy_ok, prob_val_ok, h.ne', not_lt.2 h.le]
  · simp [qcauchy, cauchy_ok, prob_val_ok, h.ne', not_lt.2 h.le]
  · intro u h0 h1
    simp [qcauchy, cauchy_ok, prob_val_ok, h.ne', not_lt.2 h.le, h0.le, h1.le, h0.ne', h1.ne, qcauchy_compute]
  · intro u v h0 huv h1
    have pp := Lib.pi_pos
    have key : ∀ u : ℝ, 0 < u → u < 1 → Btw (-(Lib.pi / 2)) (Lib.pi / 2) (PI * (fin u - half)) := by
      intro u h0 h1
      have : Btw (-(1 / 2)) (1 / 2) (fin u - half) := by
        rw [half, fin_sub_fin]
        exact btw_rnd (rep_neg rep_oh) rep_oh (by linarith) (by linarith)
      obtain ⟨d, hd, h2, h3⟩ := this
      rw [hd, PI, fin_mul_fin]
      exact btw_rnd (rep_neg hp) hp (by nlinarith) (by nlinarith)
    obtain ⟨x, hx, hx1, hx2⟩ := key u h0 (huv.trans_lt h1)
    obtain ⟨y, hy, hy0, hy1⟩ := key v (h0.trans_le huv) h1
    have hxy : x ≤ y := by
      have := mul_mono pp (sub_mono (1 / 2) (fin_le_fin.2 huv))
      rw [PI, half] at hx hy
      rwa [hx, hy, fin_le_fin] at this
    simp only [hx, hy]
    refine add_mono mu (mul_mono h ?_)
    rw [tan, tan, ofE_le_ofE]
    exact MonoTan.tan_mono ⟨hx1, hx2⟩ ⟨hy0, hy1⟩ hxy

/-- Inside the interval; the upper end is exceeded when `b - a` overflows (`C16_unif_violated`). -/
theorem C16_unif_rounded_partial {a b : ℝ} (hab : a < b) (ha : Rep a) {u v : ℝ} (hu : 0 ≤ u) (huv : u ≤ v)
    (hv : v < 1) :
    qunif (fin u) (fin a) (fin b) ≤ qunif (fin v) (fin a) (fin b) := by
  have h2 : ¬ b ≤ a := by linarith
  have e : ∀ u : ℝ, 0 < u → u < 1 → qunif (fin u) (fin a) (fin b) = fin a + fin u * (fin b - fin a) := by
    intro u h0 h1
    simp [qunif, unif_ok, prob_val_ok, h2, h0.le, h1.le, h0.ne', h1.ne, qunif_compute]
  have e0 : qunif (fin 0) (fin a) (fin b) = fin a := by simp [qunif, unif_ok, prob_val_ok, h2]
  have d0 : 0 ≤ Lib.rnd (b - a) := by
    have := Lib.rnd_mono (show (0 : ℝ) ≤ b - a by linarith)
    rwa [show Lib.rnd 0 = _ from rep_zero] at this
  have m : ∀ u v : ℝ, 0 ≤ u → u ≤ v → 0 < v → u = 0 ∨ fin u * (fin b - fin a) ≤ fin v * (fin b - fin a) := by
    intro u v h0 huv hv0
    rcases h0.eq_or_lt with rfl | h0
    · exact Or.inl rfl
    right
    rw [fin_sub_fin]
    revert d0
    generalize Lib.rnd (b - a) = w
    intro d0
    induction w using EReal.rec with
    | bot => simp at d0
    | top => simp [fin_mul_pinf, h0.ne', hv0.ne', h0, hv0]
    | coe y =>
      have : 0 ≤ y := by exact_mod_cast d0
      rw [ofE_coe, fin_mul_fin, fin_mul_fin, ofE_le_ofE]
      exact Lib.rnd_mono (by gcongr)
  rcases hu.eq_or_lt with rfl | hu
  · rcases huv.eq_or_lt with rfl | hv0
    · rw [e0]; simp
    · rw [e0, e v hv0 hv]
      have : fin 0 ≤ fin v * (fin b - fin a) := by
        rw [fin_sub_fin]
        revert d0
        generalize Lib.rnd (b - a) = w
        intro d0
        induction w using EReal.rec with
        | bot => simp at d0
        | top => simp [fin_mul_pinf, hv0.ne', hv0]
        | coe y =>
          have : 0 ≤ y := by exact_mod_cast d0
          rw [ofE_coe, fin_mul_fin]
          have := Lib.rnd_mono (show (0 : ℝ) ≤ v * y by positivity)
          rw [show Lib.rnd 0 = _ from rep_zero] at this
          rw [← ofE_coe, ofE_le_ofE]; exact this
      have := add_mono a this
      rwa [fin_add_fin, add_zero, show Lib.rnd a = _ from ha, ofE_coe] at this
  · rw [e u hu (huv.trans_lt hv), e v (hu.trans_le huv) hv]
    exact add_mono a ((m u v hu.le huv (hu.trans_le huv)).resolve_left hu.ne')

theorem igammaInv_fl {a u : ℝ} (ha : 0 < a) (h0 : 0 ≤ u) (h1 : u ≤ 1) :
    igammaInv (fin a) (fin u) = ofE (Lib.igammaInv a u) := by
  rw [igammaInv, if_neg (by push Not; exact ⟨ha.le, h0, h1⟩)]

theorem ibetaInv_fl {a b u : ℝ} (ha : 0 < a) (hb : 0 < b) (h0 : 0 ≤ u) (h1 : u ≤ 1) :
    ibetaInv (fin a) (fin b) (fin u) = ofE (Lib.ibetaInv a b u) := by
  rw [ibetaInv, if_neg (by push Not; exact ⟨ha.le, hb.le, h0, h1⟩)]

theorem C16_gamma_rounded [MonoInv] {k θ : ℝ} (hk : 0 < k) (hθ : Lib.eps ≤ θ) :
    MonoQuant (fun u => qgamma u (fin k) (fin θ)) (fin 0) pinf := by
  have hp : 0 < θ := Lib.eps_pos.trans_le hθ
  refine monoQuant_half (fun u => fin θ * igammaInv (fin k) (fin u)) ?_ ?_ ?_ ?_ ?_
  · simp [qgamma, gamma_ok, prob_val_ok, not_lt.2 hk.le, eps, not_lt.2 hθ]
  · simp [qgamma, gamma_ok, prob_val_ok, not_lt.2 hk.le, eps, not_lt.2 hθ]
  · intro u h0 h1
    simp [qgamma, gamma_ok, prob_val_ok, not_lt.2 hk.le, eps, not_lt.2 hθ, h0.le, h1.le, h0.ne', h1.ne, hk.ne',
      qgamma_compute]
  · intro u v h0 huv h1
    have hv := h0.trans_le huv
    have hu := huv.trans_lt h1
    simp only [igammaInv_fl hk h0.le hu.le, igammaInv_fl hk hv.le h1.le]
    exact mul_mono hp (ofE_le_ofE.2 (MonoInv.igammaInv_mono k hk ⟨h0.le, hu⟩ ⟨hv.le, h1⟩ huv))
  · intro u h0 h1
    simp only [igammaInv_fl hk h0.le h1.le]
    exact (nn_fin hp.le).mul (nn_ofE (Lib.igammaInv_nonneg _ _))

theorem C16_chisq_rounded [MonoInv] {k a : ℝ} (hk : 0 < k) (ha : 0 < a) (h2 : Lib.rnd (k / 2) = a) :
    MonoQuant (fun u => qchisq u (fin k)) (fin 0) pinf := by
  have e : fin k / 2 = fin a := by
    rw [two_fl, fin_div_fin, if_neg two_ne_zero, h2, ofE_coe]
  refine monoQuant_half (fun u => 2 * igammaInv (fin a) (fin u)) ?_ ?_ ?_ ?_ ?_
  · simp [qchisq, chisq_ok, prob_val_ok, not_lt.2 hk.le]
  · simp [qchisq, chisq_ok, prob_val_ok, not_lt.2 hk.le]
  · intro u h0 h1
    rw [← e]
    simp [qchisq, chisq_ok, prob_val_ok, not_lt.2 hk.le, h0.le, h1.le, h0.ne', h1.ne, qchisq_compute]
  · intro u v h0 huv h1
    have hv := h0.trans_le huv
    have hu := huv.trans_lt h1
    simp only [igammaInv_fl ha h0.le hu.le, igammaInv_fl ha hv.le h1.le, two_fl]
    exact mul_mono two_pos (ofE_le_ofE.2 (MonoInv.igammaInv_mono a ha ⟨h0.le, hu⟩ ⟨hv.le, h1⟩ huv))
  · intro u h0 h1
    simp only [igammaInv_fl ha h0.le h1.le, two_fl]
    exact (nn_fin two_pos.le).mul (nn_ofE (Lib.igammaInv_nonneg _ _))

theorem const_div_anti {c : ℝ} (hc : 0 < c) {x y : Fl} (h0 : fin 0 ≤ x) (h : x ≤ y) : fin c / y ≤ fin c / x := by
  have zero : ∀ r : ℝ, 0 ≤ r → fin 0 ≤ fin c / fin r := by
    intro r hr
    rw [fin_div_fin]
    split_ifs with h1 h2
    · exact absurd h2 hc.ne'
    · simp
    · have := Lib.rnd_mono (show (0 : ℝ) ≤ c / r by positivity)
      rw [show Lib.rnd 0 = _ from rep_zero] at this
      rw [← ofE_coe, ofE_le_ofE]; exact this
  cases x <;> cases y <;> simp at h0 h
  · exact div_mono_anti hc le_rfl h0 h
  · rename_i r
    rw [show fin c / pinf = fin 0 from rfl]; exact zero r h0
  · rw [show fin c / pinf = fin 0 from rfl]; simp

/-- Where `1 - p` is not rounded to 1, an argument at which `igammaInv` has no value. -/
theorem C16_invgamma_rounded_partial [MonoInv] {α β : ℝ} (ha : 0 < α) (hb : 0 < β) {u v : ℝ} (h0 : 0 < u)
    (h1 : Lib.rnd (1 - u) < 1) (huv : u ≤ v) (hv : v ≤ 1) :
    qinvgamma (fin u) (fin α) (fin β) ≤ qinvgamma (fin v) (fin α) (fin β) ∧
    qinvgamma (fin 0) (fin α) (fin β) ≤ qinvgamma (fin u) (fin α) (fin β) := by
  have e : ∀ u : ℝ, 0 < u → u < 1 →
      qinvgamma (fin u) (fin α) (fin β) = fin β / igammaInv (fin α) (1 - fin u) := by
    intro u h0 h1
    simp [qinvgamma, invgamma_ok, prob_val_ok, not_lt.2 ha.le, not_lt.2 hb.le, h0.le, h1.le, h0.ne', h1.ne, ha.ne',
      hb.ne', qinvgamma_compute]
  have e0 : qinvgamma (fin 0) (fin α) (fin β) = fin 0 := by
    simp [qinvgamma, invgamma_ok, prob_val_ok, not_lt.2 ha.le, not_lt.2 hb.le]
  have e1 : qinvgamma (fin 1) (fin α) (fin β) = pinf := by
    simp [qinvgamma, invgamma_ok, prob_val_ok, not_lt.2 ha.le, not_lt.2 hb.le]
  have lt1 : ∀ {u b : ℝ}, Lib.rnd (1 - u) < 1 → (1 : Fl) - fin u = fin b → b < 1 := by
    intro u b h hb
    rw [one_eq, fin_sub_fin] at hb
    have : (Lib.rnd (1 - u)) = (b : EReal) := by
      revert hb
      generalize Lib.rnd (1 - u) = w
      intro hb
      induction w using EReal.rec with
      | bot => simp at hb
      | top => simp at hb
      | coe y => simpa using hb
    rw [this] at h
    exact_mod_cast h
  have inside : ∀ u v : ℝ, 0 < u → Lib.rnd (1 - u) < 1 → u ≤ v → v < 1 →
      qinvgamma (fin u) (fin α) (fin β) ≤ qinvgamma (fin v) (fin α) (fin β) := by
    intro u v h0 h1 huv hv
    rw [e u h0 (huv.trans_lt hv), e v (h0.trans_le huv) hv]
    obtain ⟨x, y, hx, hy, x0, xy, y1⟩ := one_sub_anti h0.le huv hv.le
    have y1 := lt1 h1 hy
    rw [hx, hy, igammaInv_fl ha x0 (xy.trans y1.le), igammaInv_fl ha (x0.trans xy) y1.le]
    refine const_div_anti hb ?_ (ofE_le_ofE.2
      (MonoInv.igammaInv_mono α ha ⟨x0, xy.trans_lt y1⟩ ⟨x0.trans xy, y1⟩ xy))
    exact nn_le.2 ⟨ofE_ne_nan _, nn_ofE (Lib.igammaInv_nonneg _ _)⟩
  have nn : ∀ u : ℝ, 0 < u → Lib.rnd (1 - u) < 1 → u ≤ 1 → fin 0 ≤ qinvgamma (fin u) (fin α) (fin β) := by
    intro u h0 h1 hu
    rcases hu.eq_or_lt with rfl | hu
    · rw [e1]; simp
    · refine nn_le.2 ⟨fun hc => ?_, ?_⟩
      · have := inside u u h0 h1 le_rfl hu
        rw [hc] at this; simp at this
      · rw [e u h0 hu]
        obtain ⟨x, y, hx, hy, x0, xy, y1⟩ := one_sub_anti h0.le le_rfl hu.le
        rw [hx, igammaInv_fl ha x0 (xy.trans y1)]
        exact (nn_fin hb.le).div (nn_ofE (Lib.igammaInv_nonneg _ _))
  constructor
  · rcases hv.eq_or_lt with rfl | hv
    · rw [e1]
      exact le_pinf (nn_le.1 (nn u h0 h1 huv)).1
    · exact inside u v h0 h1 huv hv
  · rw [e0]; exact nn u h0 h1 (huv.trans hv)

theorem C16_beta_rounded [MonoInv] {a b : ℝ} (ha : 0 < a) (hb : 0 < b) :
    MonoQuant (fun u => qbeta u (fin a) (fin b)) (fin 0) (fin 1) := by
  refine monoQuant_mk (fun u => ofE (Lib.ibetaInv a b u)) ?_ ?_ ?_ ?_ ?_ ?_ (by simp) (by simp) (by simp)
  · simp [qbeta, beta_ok, prob_val_ok, not_lt.2 ha.le, not_lt.2 hb.le]
  · simp [qbeta, beta_ok, prob_val_ok, not_lt.2 ha.le, not_lt.2 hb.le]
  · intro u h0 h1
    rw [← ibetaInv_fl ha hb h0.le h1.le]
    simp [qbeta, beta_ok, prob_val_ok, not_lt.2 ha.le, not_lt.2 hb.le, h0.le, h1.le, h0.ne', h1.ne, ha.ne', hb.ne',
      qbeta_compute]
  · intro u v h0 huv h1
    exact ofE_le_ofE.2 (MonoInv.ibetaInv_mono a b ha hb ⟨h0.le, (huv.trans_lt h1).le⟩ ⟨(h0.trans_le huv).le, h1.le⟩ huv)
  · intro u _ _
    rw [← ofE_coe, ofE_le_ofE]; exact Lib.ibetaInv_nonneg _ _ _
  · intro u _ _
    rw [ofE_le_fin]; exact Lib.ibetaInv_le _ _ _

theorem C16_weibull_rounded [MonoLib] [MonoInv] {k θ i : ℝ} (h1 : Lib.eps ≤ k) (h2 : Lib.eps ≤ θ) (hi : 0 < i)
    (hk : Lib.rnd (1 / k) = i) : MonoQuant (fun u => qweibull u (fin k) (fin θ)) (fin 0) pinf := by
  have pk : 0 < k := Lib.eps_pos.trans_le h1
  have pt : 0 < θ := Lib.eps_pos.trans_le h2
  have e : 1 / fin k = fin i := by
    rw [one_eq, fin_div_fin, if_neg pk.ne', hk, ofE_coe]
  have l : ∀ u : ℝ, u < 1 → log1p (-fin u) = ofE (Lib.log1p (-u)) := by
    intro u hu
    rw [neg_fin, log1p, if_neg (by linarith), if_neg (by linarith)]
  have ln : ∀ u : ℝ, 0 < u → u < 1 → fin 0 ≤ -log1p (-fin u) := by
    intro u h0 hu
    rw [l u hu]
    have : Lib.log1p (-u) ≤ Lib.log1p 0 := MonoLib.log1p_mono (by simpa using hu) (by simp) (by linarith)
    rw [MonoInv.log1p_zero] at this
    have : ofE (Lib.log1p (-u)) ≤ fin 0 := by rw [ofE_le_fin]; simpa using this
    simpa using neg_anti this
  refine monoQuant_half (fun u => fin θ * pow (-log1p (-fin u)) (fin i)) ?_ ?_ ?_ ?_ ?_
  · simp [qweibull, weibull_ok, prob_val_ok, eps, not_lt.2 h1, not_lt.2 h2, pk.ne']
  · simp [qweibull, weibull_ok, prob_val_ok, eps, not_lt.2 h1, not_lt.2 h2, pk.ne']
  · intro u hu0 hu1
    rw [← e]
    simp [qweibull, weibull_ok, prob_val_ok, eps, not_lt.2 h1, not_lt.2 h2, pk.ne', hu0.le, hu1.le, hu0.ne', hu1.ne,
      qweibull_compute]
  · intro u v hu0 huv hv1
    have hu1 := huv.trans_lt hv1
    refine mul_mono pt (pow_mono hi (ln u hu0 hu1) (neg_anti ?_))
    rw [l u hu1, l v hv1, ofE_le_ofE]
    exact MonoLib.log1p_mono (by simpa using hv1) (by simpa using hu1) (by linarith)
  · intro u hu0 hu1
    have := pow_mono hi (show fin 0 ≤ fin 0 by simp) (ln u hu0 hu1)
    rw [show pow (fin 0) (fin i) = fin 0 by simp [pow, hi, hi.ne']] at this
    exact (nn_fin pt.le).mul (nn_le.1 this).2

theorem div_mono_anti' {x y a b : ℝ} (hx : 0 ≤ x) (hxy : x ≤ y) (ha : 0 ≤ a) (hab : a ≤ b)
    (h1 : x = 0 → b ≠ 0) (h2 : y = 0 → a ≠ 0) : fin x / fin b ≤ fin y / fin a := by
  rcases hx.eq_or_lt with rfl | hx
  · have hb := h1 rfl
    rw [fin_div_fin, if_neg hb, zero_div, show Lib.rnd 0 = _ from rep_zero, ofE_coe, fin_div_fin]
    split_ifs with h3 h4 h5
    · exact absurd h3 (h2 h4)
    · simp
    · exact absurd (lt_of_le_of_ne hxy (Ne.symm h4)) h5
    · have := Lib.rnd_mono (show (0 : ℝ) ≤ y / a by positivity)
      rw [show Lib.rnd 0 = _ from rep_zero] at this
      rw [← ofE_coe, ofE_le_ofE]; exact this
  · exact div_mono_anti hx hxy ha hab

/-- The halves of the degrees of freedom and their ratio are neither 0 nor infinite. -/
theorem C16_f_rounded [MonoInv] {d₁ d₂ a b r : ℝ} (h1 : Lib.eps ≤ d₁) (h2 : Lib.eps ≤ d₂) (ha : 0 < a) (hb : 0 < b)
    (hr : 0 < r) (e1 : Lib.rnd (d₁ / 2) = a) (e2 : Lib.rnd (d₂ / 2) = b) (e3 : Lib.rnd (a / b) = r) (rr : Rep r) :
    MonoQuant (fun u => qf u (fin d₁) (fin d₂)) (fin 0) pinf := by
  have f1 : fin d₁ / 2 = fin a := by rw [two_fl, fin_div_fin, if_neg two_ne_zero, e1, ofE_coe]
  have f2 : fin d₂ / 2 = fin b := by rw [two_fl, fin_div_fin, if_neg two_ne_zero, e2, ofE_coe]
  have f3 : fin a / fin b = fin r := by rw [fin_div_fin, if_neg hb.ne', e3, ofE_coe]
  have I : ∀ u : ℝ, 0 < u → u < 1 → ∃ x, ibetaInv (fin a) (fin b) (fin u) = fin x ∧ 0 ≤ x ∧ x ≤ 1 := by
    intro u h0 h1
    rw [ibetaInv_fl ha hb h0.le h1.le]
    exact btw_ofE (by simpa using Lib.ibetaInv_nonneg _ _ _) (by simpa using Lib.ibetaInv_le _ _ _)
  have D : ∀ x y : ℝ, 0 ≤ x → x ≤ y → y ≤ 1 → ∃ p q : ℝ, fin r * (1 - fin y) = fin p ∧ fin r * (1 - fin x) = fin q ∧
      0 ≤ p ∧ p ≤ q ∧ (x = 0 → q ≠ 0) ∧ (y = 0 → p ≠ 0) := by
    intro x y hx hxy hy
    obtain ⟨c, d, hc, hd, c0, cd, d1⟩ := one_sub_anti hx hxy hy
    have bt : ∀ z : ℝ, 0 ≤ z → z ≤ 1 → Btw 0 r (fin r * fin z) := by
      intro z h0 h1
      rw [fin_mul_fin]
      exact btw_rnd rep_zero rr (by positivity) (by nlinarith)
    obtain ⟨p, hp, p0, -⟩ := bt c c0 (cd.trans d1)
    obtain ⟨q, hq, -, -⟩ := bt d (c0.trans cd) d1
    have r1 : fin r * (1 - fin 0) = fin r := by
      have : (1 : Fl) - fin 0 = fin 1 := by rw [one_eq, fin_sub_fin, sub_zero]; simp
      rw [this, fin_mul_fin, mul_one, show Lib.rnd r = _ from rr, ofE_coe]
    have hpq := mul_mono hr (fin_le_fin.2 cd)
    rw [hp, hq, fin_le_fin] at hpq
    refine ⟨p, q, by rw [hc, hp], by rw [hd, hq], p0, hpq, ?_, ?_⟩
    · rintro rfl
      rw [hd, hq] at r1
      simp only [fin.injEq] at r1
      rw [r1]; exact hr.ne'
    · rintro rfl
      rw [hc, hp] at r1
      simp only [fin.injEq] at r1
      rw [r1]; exact hr.ne'
  refine monoQuant_half (fun u => qf_compute (fin u) (fin a) (fin b)) ?_ ?_ ?_ ?_ ?_
  · simp [qf, f_ok, prob_val_ok, eps, not_lt.2 h1, not_lt.2 h2]
  · simp [qf, f_ok, prob_val_ok, eps, not_lt.2 h1, not_lt.2 h2]
  · intro u h0 hu
    rw [← f1, ← f2]
    simp [qf, f_ok, prob_val_ok, eps, not_lt.2 h1, not_lt.2 h2, h0.le, hu.le, h0.ne', hu.ne]
  · intro u v h0 huv hv
    have hu := huv.trans_lt hv
    have hv0 := h0.trans_le huv
    obtain ⟨x, hx, x0, x1⟩ := I u h0 hu
    obtain ⟨y, hy, y0, y1⟩ := I v hv0 hv
    have hxy : x ≤ y := by
      have := ofE_le_ofE.2 (MonoInv.ibetaInv_mono a b ha hb ⟨h0.le, hu.le⟩ ⟨hv0.le, hv.le⟩ huv)
      rwa [← ibetaInv_fl ha hb h0.le hu.le, ← ibetaInv_fl ha hb hv0.le hv.le, hx, hy, fin_le_fin] at this
    obtain ⟨p, q, hp, hq, p0, pq, c1, c2⟩ := D x y x0 hxy y1
    simp only [qf_compute, qf_compute_adj, f3, hx, hy, hp, hq]
    exact div_mono_anti' x0 hxy p0 pq c1 c2
  · intro u h0 hu
    obtain ⟨x, hx, x0, x1⟩ := I u h0 hu
    obtain ⟨p, q, hp, hq, p0, pq, c1, c2⟩ := D x x x0 le_rfl x1
    simp only [qf_compute, qf_compute_adj, f3, hx, hp]
    exact (nn_fin x0).div (nn_fin p0)

/-! ### Discrete families: no assumption on the arithmetic -/

theorem C16_bern_rounded {prob : ℝ} (h0 : 0 ≤ prob) (h1 : prob ≤ 1) {u v : ℝ} (hu : 0 ≤ u) (huv : u ≤ v) (hv : v ≤ 1) :
    qbern (fin u) (fin prob) ≤ qbern (fin v) (fin prob) := by
  have a : bern_ok (fin prob) := by simp [bern_ok, h0, h1]
  have b : ∀ u : ℝ, 0 ≤ u → u ≤ 1 → prob_val_ok (fin u) := fun u h h' => by simp [prob_val_ok, h, h']
  rw [qbern, if_neg (not_not.2 a), if_neg (not_not.2 (b u hu (huv.trans hv))), qbern, if_neg (not_not.2 a),
    if_neg (not_not.2 (b v (hu.trans huv) hv))]
  obtain ⟨c, hc, -, -⟩ := Btw.one_sub (btw_fin h0 h1)
  rw [hc]
  split_ifs with h2 h3 h3 <;> simp at h2 h3 ⊢
  linarith

theorem C16_radem_rounded {prob : ℝ} (h0 : 0 ≤ prob) (h1 : prob ≤ 1) {u v : ℝ} (hu : 0 ≤ u) (huv : u ≤ v) (hv : v ≤ 1) :
    qradem (fin u) (fin prob) ≤ qradem (fin v) (fin prob) := by
  have a : radem_ok (fin prob) := by simp [radem_ok, h0, h1]
  have b : ∀ u : ℝ, 0 ≤ u → u ≤ 1 → prob_val_ok (fin u) := fun u h h' => by simp [prob_val_ok, h, h']
  rw [qradem, if_neg (not_not.2 a), if_neg (not_not.2 (b u hu (huv.trans hv))), qradem, if_neg (not_not.2 a),
    if_neg (not_not.2 (b v (hu.trans huv) hv))]
  obtain ⟨c, hc, -, -⟩ := Btw.one_sub (btw_fin h0 h1)
  rw [hc]
  split_ifs with h2 h3 h3 <;> simp at h2 h3 ⊢
  linarith

theorem ofInt_mono {j k : ℤ} (h : j ≤ k) : ofInt j ≤ ofInt k := by
  rw [ofInt, ofInt, ofE_le_ofE]; exact Lib.rnd_mono (by exact_mod_cast h)

/-- `qbinom` returns at every probability, and the search started with a larger one goes at least as far, however the
distribution function is rounded. -/
theorem C16_binom_rounded {n : ℤ} (hn : 0 ≤ n) {prob : ℝ} (h0 : 0 ≤ prob) (h1 : prob ≤ 1) :
    MonoQuantO (fun u => qbinom u n (fin prob)) (fin 0) (ofInt n) := by
  have a : binom_ok n (fin prob) := by simp [binom_ok, hn, h0, h1]
  have q0 : qbinom (fin 0) n (fin prob) = some (fin 0) := by
    rw [qbinom, if_neg (not_not.2 a)]; simp [prob_val_ok]
  have q1 : qbinom (fin 1) n (fin prob) = some (ofInt n) := by
    rw [qbinom, if_neg (not_not.2 a)]; simp [prob_val_ok]
  have z : ∀ k : ℤ, 0 ≤ k → fin 0 ≤ ofInt k := fun k hk => by
    have := ofInt_mono hk
    rwa [show ofInt 0 = fin 0 by simp [ofInt]] at this
  refine ⟨q0, q1, fun u v hu huv hv => ?_⟩
  rcases hu.eq_or_lt with rfl | hu
  · rcases huv.eq_or_lt with rfl | hv0
    · exact ⟨_, _, q0, q0, by simp⟩
    · rcases hv.eq_or_lt with rfl | hv
      · exact ⟨_, _, q0, q1, z n hn⟩
      · obtain ⟨k, hk, -, e, -⟩ := C20_qbinom hn h0 h1 hv0 hv
        exact ⟨_, _, q0, e, z k hk⟩
  · rcases hv.eq_or_lt with rfl | hv
    · rcases huv.eq_or_lt with rfl | hu1
      · exact ⟨_, _, q1, q1, ofInt_mono le_rfl⟩
      · obtain ⟨k, -, hk, e, -⟩ := C20_qbinom hn h0 h1 hu hu1
        exact ⟨_, _, e, q1, ofInt_mono hk⟩
    · obtain ⟨j, hj, -, ej, -, before, -⟩ := C20_qbinom hn h0 h1 hu (huv.trans_lt hv)
      obtain ⟨k, hk, -, ek, -, -, stop⟩ := C20_qbinom hn h0 h1 (hu.trans_le huv) hv
      refine ⟨_, _, ej, ek, ofInt_mono ?_⟩
      by_contra hc
      have h2 := before k hk (not_le.1 hc)
      apply stop
      revert h2
      cases pbinom k n (fin prob) false <;> simp
      intro h; linarith

end Stats

/-! ### Binary64 -/
namespace Stats.C16Double
open Fl Spec Double PoisDouble
set_option warn.classDefReducibility false in
attribute [local instance] doubleLib doubleLib_mono doubleLib_inv doubleLib_tan

theorem R_two_pow' (e : ℕ) (he : e ≤ 1023) : R (2 ^ e) = (((2 : ℝ) ^ e : ℝ) : EReal) := by
  refine R_of_mul (by positivity) (k := 1) (j := e) (by simp) ?_ (pow_lt_pow_right₀ (by norm_num) (by omega))
  have := q_le (x := 2 ^ e) (by positivity) (e := e) (by
    rw [← zpow_natCast]; exact zpow_lt_zpow_right₀ (by norm_num) (by omega)) (by omega)
  omega

theorem R_pos {x : ℝ} {e : ℕ} (he : e ≤ 1000) (h1 : 1 / 2 ^ e ≤ x) (h2 : x ≤ 2 ^ 1001) :
    ∃ s : ℝ, 0 < s ∧ R x = s := by
  have p : (0 : ℝ) < 1 / 2 ^ e := by positivity
  obtain ⟨s, s0, -, es⟩ := R_fin (x := x) (B := 2 ^ 1001) (p.le.trans h1) (R_two_pow' 1001 (by norm_num)) h2
  have := R_mono h1
  rw [R_pow e he, es] at this
  exact ⟨s, p.trans_le (by exact_mod_cast this), es⟩

theorem sqrt2_ge : 1 ≤ doubleLib.sqrt2 := by
  refine doubleRounding.toReal_ge_one (Real.one_le_sqrt.2 (by norm_num)) ?_
  rw [Real.sqrt_le_left (by norm_num)]; norm_num

/-- Binary64, standard deviations between `2^-1000` and `2^1000`. -/
theorem C16_norm_double (mu : ℝ) {sigma : ℝ} (h : 1 / 2 ^ 1000 ≤ sigma) (h' : sigma ≤ 2 ^ 1000) :
    MonoQuant (fun u => qnorm u (fin mu) (fin sigma)) ninf pinf := by
  have p : 0 < sigma := lt_of_lt_of_le (by positivity) h
  have b2 := sqrt2_le.trans (by norm_num : (3 : ℝ) / 2 ≤ 2)
  obtain ⟨s, s0, es⟩ := R_pos (x := doubleLib.sqrt2 * sigma) (e := 1000) le_rfl
    (h.trans (le_mul_of_one_le_left p.le sqrt2_ge)) (by
      rw [pow_succ, mul_comm]
      exact mul_le_mul h' b2 (zero_le_one.trans sqrt2_ge) (by positivity))
  exact C16_norm_rounded mu p s0 es

/-- Binary64: with the finite standard deviation `3·2^1022` the median is NaN; √2·sigma overflows and is multiplied by 0. -/
theorem C16_norm_violated (mu : ℝ) :
    R (3 * 2 ^ 1022) = ((3 * 2 ^ 1022 : ℝ) : EReal) ∧ qnorm (fin (1 / 2)) (fin mu) (fin (3 * 2 ^ 1022)) = nan := by
  have lt : (3 : ℝ) * 2 ^ 1022 < 2 ^ 1024 := by
    rw [show (2 : ℝ) ^ 1024 = 4 * 2 ^ 1022 by rw [pow_add 2 1022 2]; ring]
    have : (0 : ℝ) < 2 ^ 1022 := by positivity
    generalize (2 : ℝ) ^ 1022 = t at this ⊢
    linarith
  have pos : (0 : ℝ) < 3 * 2 ^ 1022 := by positivity
  constructor
  · refine R_of_mul pos (k := 3) (j := 1022) (by rw [zpow_ofNat]; norm_num) ?_ lt
    have := q_le (x := 3 * 2 ^ 1022) pos (e := 1023) (by
      rw [show ((1023 : ℤ) + 1) = 1024 by norm_num, zpow_ofNat]; exact lt) (by norm_num)
    omega
  · have R0 : R 0 = ((0 : ℝ) : EReal) := by
      have h := doubleRounding.zero
      rw [EReal.coe_zero]; exact h
    have R1 : R 1 = ((1 : ℝ) : EReal) := by simpa using R_two_pow 0 (by norm_num)
    have hz : erfInv (2 * fin (1 / 2) - 1) = fin 0 := by
      rw [ofNat_eq, one_eq, DoubleArith.dmul]
      norm_num
      rw [R1, ofE_coe, DoubleArith.dsub, sub_self, R0, ofE_coe, erfInv]
      norm_num
      show ofE (R (invOn Spec.erf Set.univ 0)) = _
      have h := invOn_apply (strictMono_erf.injective.injOn (s := Set.univ)) (Set.mem_univ (0 : ℝ))
      rw [erf_zero] at h
      rw [h, R0, ofE_coe]
    have s2 : (11 / 8 : ℝ) ≤ doubleLib.sqrt2 := by
      have h1 : (11 / 8 : ℝ) ≤ √2 := Real.le_sqrt_of_sq_le (by norm_num)
      have h2 := R_mono h1
      have e1 : R (11 / 8) = ((11 / 8 : ℝ) : EReal) := by
        refine R_of_mul (by norm_num) (k := 11) (j := -3) (by norm_num) ?_ ?_
        · have := q_le (x := 11 / 8) (by norm_num) (e := 0) (by norm_num) (by norm_num)
          omega
        · exact lt_of_lt_of_le (by norm_num : (11 / 8 : ℝ) < 2 ^ 1) (pow_le_pow_right₀ (by norm_num) (by norm_num))
      obtain ⟨y, -, -, e⟩ := R_fin (x := √2) (B := 2 ^ 1) (Real.sqrt_nonneg 2) (R_two_pow 1 (by norm_num)) (by
        rw [pow_one]; exact Real.sqrt_le_iff.2 ⟨by norm_num, by norm_num⟩)
      rw [e1, e] at h2
      show _ ≤ (R √2).toReal
      rw [e, EReal.toReal_coe]; exact_mod_cast h2
    have big : SQRT2 * fin (3 * 2 ^ 1022) = pinf := by
      show ofE (R (doubleLib.sqrt2 * (3 * 2 ^ 1022))) = pinf
      rw [R_big, ofE_top]
      rw [show (2 : ℝ) ^ 1024 = 4 * 2 ^ 1022 by rw [pow_add 2 1022 2]; ring]
      have : (0 : ℝ) < 2 ^ 1022 := by positivity
      clear lt pos
      generalize (2 : ℝ) ^ 1022 = t at this ⊢
      nlinarith
    have ok : norm_ok (fin mu) (fin (3 * 2 ^ 1022)) := by simp [norm_ok]
    have pv : prob_val_ok (fin (1 / 2)) := by simp [prob_val_ok]; norm_num
    rw [qnorm, if_neg (not_not.2 ok), if_neg (not_not.2 pv), if_neg (by simp), if_neg (by simp),
      if_neg (by simp), if_neg (by simp), qnorm_compute, hz, big]
    simp [pinf_mul_fin]

/-- Binary64, the interval from `-2^1023` to `2^1023`: the median is infinite, above the upper end. -/
theorem C16_unif_violated :
    qunif (fin (1 / 2)) (fin (-2 ^ 1023)) (fin (2 ^ 1023)) = pinf ∧
    qunif (fin 1) (fin (-2 ^ 1023)) (fin (2 ^ 1023)) = fin (2 ^ 1023) ∧
    R (2 ^ 1023) = ((2 ^ 1023 : ℝ) : EReal) := by
  have p : (0 : ℝ) < 2 ^ 1023 := by positivity
  have ok : unif_ok (fin (-2 ^ 1023)) (fin (2 ^ 1023)) := by
    refine ⟨by simp, ?_⟩
    rw [ge_iff_le, fin_le_fin, not_le]
    generalize (2 : ℝ) ^ 1023 = t at p ⊢
    linarith
  have pv : prob_val_ok (fin (1 / 2)) := by simp [prob_val_ok]; norm_num
  have pv1 : prob_val_ok (fin 1) := by simp [prob_val_ok]
  refine ⟨?_, ?_, R_two_pow' 1023 le_rfl⟩
  · rw [qunif, if_neg (not_not.2 ok), if_neg (not_not.2 pv), if_neg (by simp), if_neg (by simp), if_neg (by simp),
      qunif_compute, DoubleArith.dsub, R_big, ofE_top]
    · simp [fin_mul_pinf]
    · rw [show (2 : ℝ) ^ 1024 = 2 * 2 ^ 1023 by rw [pow_succ]; ring]
      generalize (2 : ℝ) ^ 1023 = t
      linarith
  · rw [qunif, if_neg (not_not.2 ok), if_neg (not_not.2 pv1), if_neg (by simp), if_neg (by simp), if_pos (by simp)]

/-! Each theorem at one set of parameters in binary64. -/

theorem rep_three_halves : Rep (3 / 2) := by simpa using rep_half 3 (by norm_num)

example : MonoQuant (fun u => qexp u (fin (2 / 3))) (fin 0) pinf := C16_exp_rounded (by norm_num)
example : MonoQuant (fun u => qlogis u (fin (1 / 3)) (fin 5)) ninf pinf := C16_logis_rounded _ (by norm_num)
example : MonoQuant (fun u => qlaplace u (fin (1 / 3)) (fin (5 / 2))) ninf pinf :=
  C16_laplace_rounded _ (by norm_num) (by simpa using rep_half 5 (by norm_num))
example : MonoQuant (fun u => qnorm u (fin (1 / 3)) (fin 1)) ninf pinf :=
  C16_norm_double _ (by rw [div_le_one (by positivity)]; exact one_le_pow₀ (by norm_num)) (one_le_pow₀ (by norm_num))
example : MonoQuant (fun u => qlnorm u (fin (1 / 3)) (fin 1)) (fin 0) pinf := by
  obtain ⟨s, s0, es⟩ := R_pos (x := doubleLib.sqrt2 * 1) (e := 0) (by norm_num) (by simpa using sqrt2_ge) (by
    have := sqrt2_le.trans (by norm_num : (3 : ℝ) / 2 ≤ 2)
    rw [mul_one]
    exact this.trans (le_self_pow₀ (by norm_num) (by norm_num)))
  exact C16_lnorm_rounded _ one_pos s0 es
example : MonoQuant (fun u => qcauchy u (fin (1 / 3)) (fin 2)) ninf pinf := by
  refine C16_cauchy_rounded _ two_pos ?_
  rw [Rep, double_pi]
  refine R_of_mul (by norm_num) (k := 884279719003555) (j := -49) (by norm_num) ?_
    (lt_of_lt_of_le (by norm_num : _ < (2 : ℝ) ^ 2) (pow_le_pow_right₀ (by norm_num) (by norm_num)))
  have := q_le (x := 884279719003555 / 2 ^ 48 / 2) (by norm_num) (e := 0) (by norm_num) (by norm_num)
  omega
example : qunif (fin (1 / 7)) (fin 0) (fin (7 / 2)) ≤ qunif (fin (2 / 3)) (fin 0) (fin (7 / 2)) :=
  C16_unif_rounded_partial (by norm_num) rep_zero (by norm_num) (by norm_num) (by norm_num)
example : MonoQuant (fun u => qgamma u (fin (1 / 3)) (fin 2)) (fin 0) pinf :=
  C16_gamma_rounded (by norm_num) (by rw [DoubleArith.deps]; norm_num)
example : MonoQuant (fun u => qchisq u (fin 3)) (fin 0) pinf :=
  C16_chisq_rounded (a := 3 / 2) (by norm_num) (by norm_num) rep_three_halves
example : qinvgamma (fin (1 / 2)) (fin (1 / 3)) (fin 5) ≤ qinvgamma (fin (2 / 3)) (fin (1 / 3)) (fin 5) :=
  (C16_invgamma_rounded_partial (by norm_num) (by norm_num) (by norm_num) (by
    rw [show (1 : ℝ) - 1 / 2 = 1 / 2 by norm_num, show Lib.rnd (1 / 2) = _ from rep_oh]
    rw [← EReal.coe_one, EReal.coe_lt_coe_iff]; norm_num) (by norm_num) (by norm_num)).1
example : MonoQuant (fun u => qbeta u (fin (1 / 3)) (fin 2)) (fin 0) (fin 1) :=
  C16_beta_rounded (by norm_num) (by norm_num)
example : MonoQuant (fun u => qf u (fin 3) (fin 2)) (fin 0) pinf :=
  C16_f_rounded (a := 3 / 2) (b := 1) (r := 3 / 2) (by rw [DoubleArith.deps]; norm_num) (by rw [DoubleArith.deps]; norm_num)
    (by norm_num) (by norm_num) (by norm_num) rep_three_halves
    (by rw [div_self two_ne_zero]; exact rep_one) (by rw [div_one]; exact rep_three_halves)
    rep_three_halves
example : MonoQuant (fun u => qweibull u (fin 2) (fin 3)) (fin 0) pinf :=
  C16_weibull_rounded (i := 1 / 2) (by rw [DoubleArith.deps]; norm_num) (by rw [DoubleArith.deps]; norm_num) (by norm_num) rep_oh
example : qbern (fin (1 / 3)) (fin (3 / 7)) ≤ qbern (fin (1 / 2)) (fin (3 / 7)) :=
  C16_bern_rounded (by norm_num) (by norm_num) (by norm_num) (by norm_num) (by norm_num)
example : qradem (fin (1 / 3)) (fin (3 / 7)) ≤ qradem (fin (1 / 2)) (fin (3 / 7)) :=
  C16_radem_rounded (by norm_num) (by norm_num) (by norm_num) (by norm_num) (by norm_num)
example : MonoQuantO (fun u => qbinom u 12 (fin (3 / 7))) (fin 0) (ofInt 12) :=
  C16_binom_rounded (by norm_num) (by norm_num) (by norm_num)

end Stats.C16Double

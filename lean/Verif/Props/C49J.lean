import Verif.Props.C49H
import Verif.Props.C21

/-!
# C49: the Newton iteration of `qinvgauss` under rounding

Whenever the stopping test ends the loop, the result is a quantile of a probability within the error of `pinvgauss` of
the given one.
-/

set_option linter.unusedSectionVars false
open Classical Finset
namespace Stats
open Fl Spec
variable [Lib] {u : ℝ} [R : RelLib u]

theorem pinvgauss_le_zero {mu lambda x : ℝ} (hm : 0 < mu) (hl : 0 < lambda) (hx : x ≤ 0) :
    pinvgauss (fin x) (fin mu) (fin lambda) false = fin 0 := by
  rcases hx.lt_or_eq with h | rfl
  · simp [pinvgauss, invgauss_ok', invgauss_ok, not_lt.2 hm.le, not_lt.2 hl.le, h, log_zero_if, zero_eq]
  · simp [pinvgauss, invgauss_ok', invgauss_ok, not_lt.2 hm.le, not_lt.2 hl.le, log_if, hm.ne', hl.ne',
      pinvgauss_limit_vals, zero_eq]

theorem test_real {a b : ℝ} (h : abs (fin a - fin b) < minpos) : (1 - u) * |a - b| < Lib.minpos := by
  obtain ⟨-, y, ey, t, h1, h2, rfl⟩ := relF_sub (u := u) a b
  rw [ey] at h
  have h' : |(a - b) * t| < Lib.minpos := by simpa [minpos, Fl.abs] using h
  rw [Real.rpow_one] at h1
  have : 0 < 1 - u := by linarith [R.u_lt]
  rw [abs_mul, abs_of_pos (lt_of_lt_of_le this h1)] at h'
  nlinarith [abs_nonneg (a - b)]

/-- missing: that the stopping test, not the limit of 100 rounds, ends the loop -/
theorem C49_qinvgauss_partial {mu lambda p : ℝ} (hm : 0 < mu) (hl : 0 < lambda)
    (hg : gam u 2 * (2 * lambda / mu) ≤ 1) (h0 : Lib.minpos ≤ (1 - u) * p) (h1 : Lib.minpos ≤ (1 - u) * (1 - p)) :
    ∃ n ≤ 100, qinvgauss (fin p) (fin mu) (fin lambda) =
      (newton (fun x => pinvgauss x (fin mu) (fin lambda)) (fun x => dinvgauss x (fin mu) (fin lambda)) (fin p))^[n]
        (invgauss_mode (fin mu) (fin mu / fin lambda)) ∧
    (n < 100 → ∃ x, 0 < x ∧ qinvgauss (fin p) (fin mu) (fin lambda) = fin x ∧
      |(∫ t in Set.Iic x, invgaussPdf mu lambda t) - p| ≤ Lib.minpos / (1 - u) +
        gam u 17 * (√(lambda / x) * (x / mu + 1) + 1 + Real.exp (2 * lambda / mu) * (1 + 4 * lambda / mu))) := by
  have hu : 0 < 1 - u := by linarith [R.u_lt]
  have hmp := Lib.minpos_pos
  have p0 : 0 < p := by
    by_contra hc
    nlinarith
  have p1 : p < 1 := by
    by_contra hc
    nlinarith
  obtain ⟨n, hn, e, -, h⟩ := C21_qinvgauss_newton (fin p) (fin mu) (fin lambda)
  have hq : qinvgauss (fin p) (fin mu) (fin lambda) = qinvgauss_compute (fin p) (fin mu) (fin lambda) := by
    simp [qinvgauss, invgauss_ok, prob_val_ok, not_lt.2 hm.le, not_lt.2 hl.le, hm.ne', hl.ne', p0.ne', p1.ne,
      not_lt.2 p0.le, not_lt.2 p1.le]
  rw [← hq] at e h
  refine ⟨n, hn, e, fun hlt => ?_⟩
  have ht := h.resolve_left hlt.ne
  cases hv : qinvgauss (fin p) (fin mu) (fin lambda) with
  | nan => rw [hv] at ht; simp [pinvgauss, invgauss_ok', Fl.abs] at ht
  | ninf =>
    rw [hv] at ht
    have : pinvgauss ninf (fin mu) (fin lambda) false = fin 0 := by
      simp [pinvgauss, invgauss_ok', invgauss_ok, not_lt.2 hm.le, not_lt.2 hl.le, log_zero_if, zero_eq]
    rw [this] at ht
    have := test_real (u := u) ht
    rw [sub_zero, abs_of_pos p0] at this
    linarith
  | pinf =>
    rw [hv] at ht
    have : pinvgauss pinf (fin mu) (fin lambda) false = fin 1 := by
      simp [pinvgauss, invgauss_ok', invgauss_ok, not_lt.2 hm.le, not_lt.2 hl.le, log_if, pinvgauss_limit_vals, one_eq]
    rw [this] at ht
    have := test_real (u := u) ht
    rw [abs_sub_comm, abs_of_pos (by linarith)] at this
    linarith
  | fin x =>
    rw [hv] at ht
    have hx : 0 < x := by
      by_contra hc
      rw [pinvgauss_le_zero hm hl (not_lt.1 hc)] at ht
      have := test_real (u := u) ht
      rw [sub_zero, abs_of_pos p0] at this
      linarith
    obtain ⟨y, ey, hy⟩ := C49_pinvgauss (u := u) hm hl hx hg
    rw [ey] at ht
    have := test_real (u := u) ht
    refine ⟨x, hx, rfl, ?_⟩
    have h2 : |p - y| ≤ Lib.minpos / (1 - u) := by rw [le_div_iff₀ hu]; linarith
    have := abs_sub_le (∫ t in Set.Iic x, invgaussPdf mu lambda t) y p
    rw [abs_sub_comm _ y, abs_sub_comm y p] at this
    linarith

end Stats

namespace Stats.ExamplesC49
open Fl Spec

set_option warn.classDefReducibility false in
attribute [local instance] wideLib
attribute [local instance] wideLib_rel

theorem minpos_small : Lib.minpos ≤ 1 / 2 ^ 3 :=
  one_div_le_one_div_of_le (by positivity) (pow_le_pow_right₀ (by norm_num) (by norm_num : 3 ≤ 1022))

example := C49_qinvgauss_partial (u := 1 / 2 ^ 53) (mu := 2) (lambda := 3) (p := 1 / 4) (by norm_num) (by norm_num)
  (by have := gam_le (k := 2) (by norm_num); norm_num at this ⊢; linarith)
  (minpos_small.trans (by norm_num)) (minpos_small.trans (by norm_num))

end Stats.ExamplesC49

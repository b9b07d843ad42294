import Verif.Model.Abs
import Verif.Props.C21B
import Verif.Lemmas.Meets

/-! # C64: the stopping test of `qinvgauss` and the meaning of `abs` -/

set_option linter.unusedSectionVars false
open Classical
namespace Stats
open Fl Spec

section Any
variable [Lib]

theorem iter_abs_floating (p mu lambda : Fl) (n : ℕ) (qn : Fl) :
    qinvgauss_iter_abs .floating p mu lambda n qn = some (qinvgauss_compute_iter p mu lambda n qn) := by
  induction n generalizing qn with
  | zero =>
    rw [qinvgauss_iter_abs, qinvgauss_compute_iter]
    simp [callAbs]
  | succ n ih =>
    rw [qinvgauss_iter_abs, qinvgauss_compute_iter]
    simp only [callAbs, Option.bind_some, ih]
    split_ifs <;> rfl

/-- With the floating overload the call computes what the other theorems on `qinvgauss` are about, in every arithmetic
and for all arguments. The part of the claim that depends on the headers is missing, see `C64_violated`. -/
theorem C64_partial (p mu lambda : Fl) : qinvgauss_abs .floating p mu lambda = some (qinvgauss p mu lambda) := by
  unfold qinvgauss_abs qinvgauss qinvgauss_compute
  rw [iter_abs_floating]
  split_ifs <;> rfl

theorem callAbs_int_small {r : ℝ} (h0 : -1 < r) (h1 : r < 1) : callAbs .int (fin r) = some 0 := by
  have hn : (if 0 ≤ r then ⌊r⌋ else ⌈r⌉) = 0 := by
    split_ifs with h
    · exact Int.floor_eq_zero_iff.2 ⟨h, h1⟩
    · exact Int.ceil_eq_zero_iff.2 ⟨h0, by linarith⟩
  simp [callAbs, toIntegral, hn, ofInt]

/-- In every arithmetic: with `int abs(int)` the iteration stops at once when the first residual lies between -1 and 1. -/
theorem C64_int_stops (p mu lambda : Fl) (n : ℕ) (qn : Fl) {r : ℝ} (h0 : -1 < r) (h1 : r < 1)
    (hr : p - pinvgauss qn mu lambda false = fin r) : qinvgauss_iter_abs .int p mu lambda n qn = some qn := by
  have hp : fin 0 < minpos := by simp [minpos, Lib.minpos_pos]
  cases n <;> rw [qinvgauss_iter_abs] <;> simp [hr, callAbs_int_small h0 h1, hp]

end Any

variable [Lib] [Ideal]

/-- With `int abs(int)` the function returns the mode of the distribution, whatever the probability. -/
theorem C64_int_mode {mu lambda p : ℝ} (hm : 0 < mu) (hl : 0 < lambda) (h0 : 0 < p) (h1 : p < 1) :
    qinvgauss_abs .int (fin p) (fin mu) (fin lambda) = some (invgauss_mode (fin mu) (fin mu / fin lambda)) := by
  have hs : qinvgauss_abs .int (fin p) (fin mu) (fin lambda) =
      qinvgauss_iter_abs .int (fin p) (fin mu) (fin lambda) QINVGAUSS_MAX_ITER
        (invgauss_mode (fin mu) (fin mu / fin lambda)) := by
    simp [qinvgauss_abs, invgauss_ok, prob_val_ok, not_lt.2 hm.le, not_lt.2 hl.le, hm.ne', hl.ne', h0.ne', h1.ne,
      not_lt.2 h0.le, not_lt.2 h1.le]
  rw [hs]
  have hF0 : 0 ≤ igF mu lambda (igMode mu lambda) := (isCdf_invgauss hm hl).nonneg' _
  have hF1 := igF_lt_one (x := igMode mu lambda) hm hl
  refine C64_int_stops _ _ _ _ _ (r := p - igF mu lambda (igMode mu lambda)) (by linarith) (by linarith) ?_
  rw [invgauss_mode_fin hl, pinvgauss_fin hm hl]
  simp [ideal]

example : qinvgauss_abs .int (fin (1 / 3)) (fin 3) (fin 2) = some (invgauss_mode (fin 3) (fin 3 / fin 2)) :=
  C64_int_mode (mu := 3) (lambda := 2) (p := 1 / 3) (hm := by meets) (hl := by meets) (h0 := by meets) (h1 := by meets)

/-- With `int abs(int)` the comparison sees the whole part of the absolute value of the residual; from `2^31` on the call
has no defined result. -/
theorem C64_int_value (r : ℝ) :
    callAbs .int (fin r) = if |r| < 2 ^ 31 then some (fin (⌊|r|⌋ : ℤ)) else none := by
  have ht : |if 0 ≤ r then ⌊r⌋ else ⌈r⌉| = ⌊|r|⌋ := by
    split_ifs with h
    · rw [abs_of_nonneg h, abs_of_nonneg (Int.floor_nonneg.2 h)]
    · have h' : r ≤ 0 := (not_le.1 h).le
      rw [abs_of_nonpos h', abs_of_nonpos (Int.ceil_le.2 (by simpa using h')), Int.floor_neg]
  have hlt : |r| < 2 ^ 31 ↔ ⌊|r|⌋ < 2 ^ 31 := by rw [Int.floor_lt]; norm_num
  set n : ℤ := if 0 ≤ r then ⌊r⌋ else ⌈r⌉ with hn
  have hc : callAbs .int (fin r) =
      (if -2 ^ 31 ≤ n ∧ n ≤ 2 ^ 31 - 1 then some n else none).bind
        fun n => if n = -2 ^ 31 then none else some (ofInt |n|) := rfl
  rw [← ht] at hlt
  rw [hc, ← ht]
  clear_value n
  by_cases h : |r| < 2 ^ 31
  · have h2 := abs_lt.1 (hlt.1 h)
    rw [if_pos h, if_pos ⟨by omega, by omega⟩, Option.bind_some, if_neg (by omega)]
    rw [ofInt_eq]
  · have h2 := fun h' => h (hlt.2 h')
    rw [if_neg h]
    split_ifs with h3
    · have : n = -2 ^ 31 := by
        by_contra h4
        exact h2 (abs_lt.2 ⟨by omega, by omega⟩)
      simp [this]
    · rfl
example : callAbs .int (fin (-7 / 2)) = some (fin 3) := by
  rw [C64_int_value, if_pos (by norm_num [abs_of_neg])]
  norm_num [abs_of_neg]

/-- The claim fails: there are two meanings of `abs` the headers may give, and for every pair of parameters and all
probabilities but one they lead to different results, the integer one to a number that is not the quantile. -/
theorem C64_violated {mu lambda : ℝ} (hm : 0 < mu) (hl : 0 < lambda) :
    ∃ m u : ℝ, 0 < m ∧ ∀ p : ℝ, 0 < p → p < 1 → p ≠ u →
      qinvgauss_abs .int (fin p) (fin mu) (fin lambda) = some (fin m) ∧
      pinvgauss (fin m) (fin mu) (fin lambda) false ≠ fin p := by
  refine ⟨igMode mu lambda, igF mu lambda (igMode mu lambda), (igMode_root hm hl).1, fun p h0 h1 hp => ⟨?_, ?_⟩⟩
  · rw [C64_int_mode hm hl h0 h1, invgauss_mode_fin hl]
  · rw [pinvgauss_fin hm hl]
    intro h
    injection h with h
    exact hp h.symm
example : ∃ m u : ℝ, 0 < m ∧ ∀ p : ℝ, 0 < p → p < 1 → p ≠ u →
      qinvgauss_abs .int (fin p) (fin 3) (fin 2) = some (fin m) ∧
      pinvgauss (fin m) (fin 3) (fin 2) false ≠ fin p :=
  C64_violated (mu := 3) (lambda := 2) (hm := by meets) (hl := by meets)

end Stats

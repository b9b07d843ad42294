import Mathlib.Analysis.SpecialFunctions.Stirling
import Mathlib.Analysis.SpecialFunctions.Log.Deriv
import Mathlib.Analysis.Complex.ExponentialBounds
import Mathlib.Analysis.Real.Pi.Bounds
import Verif.Lemmas.RealDisc

/-!
# The lower tail of the Poisson distribution, numerically

Stirling's formula with both errors, and the tail sum between two multiples of its last term.
-/

namespace Stats
namespace PoisTail
open Finset Filter Topology

/-- the upper half of Stirling's formula (Robbins) -/
theorem factorial_le {n : ℕ} (hn : n ≠ 0) :
    (n.factorial : ℝ) ≤ √(2 * Real.pi * n) * (n / Real.exp 1) ^ n * Real.exp (1 / (12 * n)) := by
  have mono : Monotone fun m : ℕ => Real.log (Stirling.stirlingSeq (m + 1)) - 1 / (12 * ((m : ℝ) + 1)) := by
    refine monotone_nat_of_le_succ fun m => ?_
    have h := Stirling.log_stirlingSeq_sdiff_le (m + 1)
    have e : 1 / (12 * ((m + 1 : ℕ) : ℝ) * ((m + 1 : ℕ) + 1)) = 1 / (12 * ((m : ℝ) + 1)) - 1 / (12 * (((m + 1 : ℕ) : ℝ) + 1)) := by
      push_cast
      have : (0 : ℝ) < (m : ℝ) + 1 := by positivity
      have : (0 : ℝ) < (m : ℝ) + 1 + 1 := by positivity
      field_simp
      ring
    rw [e] at h
    simp only [Nat.cast_add, Nat.cast_one] at h ⊢
    linarith
  have lim : Tendsto (fun m : ℕ => Real.log (Stirling.stirlingSeq (m + 1)) - 1 / (12 * ((m : ℝ) + 1))) atTop
      (𝓝 (Real.log √Real.pi - 0)) := by
    refine Tendsto.sub ?_ ?_
    · have p : √Real.pi ≠ 0 := (Real.sqrt_pos.2 Real.pi_pos).ne'
      exact ((Real.continuousAt_log p).tendsto.comp Stirling.tendsto_stirlingSeq_sqrt_pi).comp (tendsto_add_atTop_nat 1)
    · have := (tendsto_one_div_add_atTop_nhds_zero_nat (𝕜 := ℝ)).const_mul (1 / 12)
      rw [mul_zero] at this
      refine this.congr fun m => ?_
      have : (0 : ℝ) < (m : ℝ) + 1 := by positivity
      field_simp
  obtain ⟨m, rfl⟩ := Nat.exists_eq_succ_of_ne_zero hn
  have h := mono.ge_of_tendsto lim m
  have sp := Stirling.stirlingSeq'_pos m
  have h2 : Stirling.stirlingSeq (m + 1) ≤ √Real.pi * Real.exp (1 / (12 * ((m : ℝ) + 1))) := by
    rw [← Real.log_le_log_iff sp (by positivity), Real.log_mul (by positivity) (by positivity), Real.log_exp]
    linarith
  rw [Stirling.stirlingSeq, div_le_iff₀ (by positivity)] at h2
  refine h2.trans (le_of_eq ?_)
  have e : √(2 * Real.pi * (m.succ : ℕ)) = √(2 * ((m + 1 : ℕ) : ℝ)) * √Real.pi := by
    rw [← Real.sqrt_mul (by positivity)]; congr 1; push_cast; ring
  rw [e]
  show _ = √(2 * ((m + 1 : ℕ) : ℝ)) * √Real.pi * (((m + 1 : ℕ) : ℝ) / Real.exp 1) ^ (m + 1) * Real.exp (1 / (12 * ((m + 1 : ℕ) : ℝ)))
  generalize (((m + 1 : ℕ) : ℝ) / Real.exp 1) ^ (m + 1) = a
  push_cast
  ring

theorem pow_eq {rate : ℝ} (hr : 0 < rate) {n : ℕ} (hn : n ≠ 0) :
    rate ^ n * Real.exp (-rate) = (n / Real.exp 1) ^ n * Real.exp (n * Real.log (rate / n) + n - rate) := by
  have n0 : (0 : ℝ) < n := by positivity
  rw [show n * Real.log (rate / n) + n - rate = n * Real.log (rate / n) + (n * 1 + -rate) by ring, Real.exp_add, Real.exp_add,
    Real.exp_nat_mul, Real.exp_nat_mul, Real.exp_log (by positivity), div_pow, div_pow]
  field_simp

theorem pois_le {rate : ℝ} (hr : 0 < rate) {n : ℕ} (hn : n ≠ 0) :
    rate ^ n * Real.exp (-rate) / n.factorial ≤ Real.exp (n * Real.log (rate / n) + n - rate) / √(2 * Real.pi * n) := by
  have n0 : (0 : ℝ) < n := by positivity
  have s0 : 0 < √(2 * Real.pi * n) := Real.sqrt_pos.2 (by positivity)
  have a0 : 0 < (n / Real.exp 1 : ℝ) ^ n := by positivity
  rw [pow_eq hr hn, div_le_div_iff₀ (by positivity) s0]
  have := mul_le_mul_of_nonneg_left (Stirling.le_factorial_stirling n) (Real.exp_pos (n * Real.log (rate / n) + n - rate)).le
  nlinarith

theorem le_pois {rate : ℝ} (hr : 0 < rate) {n : ℕ} (hn : n ≠ 0) :
    Real.exp (n * Real.log (rate / n) + n - rate - 1 / (12 * n)) / √(2 * Real.pi * n) ≤ rate ^ n * Real.exp (-rate) / n.factorial := by
  have n0 : (0 : ℝ) < n := by positivity
  have s0 : 0 < √(2 * Real.pi * n) := Real.sqrt_pos.2 (by positivity)
  rw [pow_eq hr hn, Real.exp_sub, div_div, div_le_div_iff₀ (by positivity) (by positivity)]
  have := mul_le_mul_of_nonneg_left (factorial_le hn) (Real.exp_pos (n * Real.log (rate / n) + n - rate)).le
  linarith

/-- the sum up to `n` is at most `rate / (rate - n)` times its last term -/
theorem sum_le {rate : ℝ} (hr : 0 ≤ rate) : ∀ n : ℕ,
    (rate - n) * ∑ i ∈ range (n + 1), rate ^ i * Real.exp (-rate) / i.factorial ≤ rate * (rate ^ n * Real.exp (-rate) / n.factorial)
  | 0 => by simp
  | n + 1 => by
    have ih := sum_le hr n
    rw [sum_range_succ _ (n + 1)]
    have s0 : 0 ≤ ∑ i ∈ range (n + 1), rate ^ i * Real.exp (-rate) / i.factorial := sum_nonneg fun i _ => by positivity
    have e : rate * (rate ^ n * Real.exp (-rate) / n.factorial) = (n + 1) * (rate ^ (n + 1) * Real.exp (-rate) / (n + 1).factorial) := by
      rw [Nat.factorial_succ]; push_cast; field_simp; ring
    rw [e] at ih
    push_cast
    nlinarith

/-- the sum up to `n` is at least `rate / (rate - n + c)` times its last term -/
theorem le_sum {rate c : ℝ} (hr : 0 ≤ rate) (hc : 0 ≤ c) : ∀ n : ℕ, 0 < rate - n + c → rate ≤ (rate - n + c) * (1 + c) →
    rate * (rate ^ n * Real.exp (-rate) / n.factorial) ≤
      (rate - n + c) * ∑ i ∈ range (n + 1), rate ^ i * Real.exp (-rate) / i.factorial
  | 0, _, _ => by
    simp
    have := (Real.exp_pos (-rate)).le
    nlinarith
  | n + 1, hd, h => by
    push_cast at hd h
    have ih := le_sum hr hc n (by linarith) (by nlinarith)
    rw [sum_range_succ _ (n + 1)]
    have e : rate * (rate ^ n * Real.exp (-rate) / n.factorial) = (n + 1) * (rate ^ (n + 1) * Real.exp (-rate) / (n + 1).factorial) := by
      rw [Nat.factorial_succ]; push_cast; field_simp; ring
    rw [e] at ih
    have t0 : 0 ≤ rate ^ (n + 1) * Real.exp (-rate) / (n + 1).factorial := by positivity
    generalize rate ^ (n + 1) * Real.exp (-rate) / (n + 1).factorial = t at *
    generalize ∑ i ∈ range (n + 1), rate ^ i * Real.exp (-rate) / i.factorial = S at *
    obtain ⟨D, hD⟩ : ∃ D, rate - (n + 1) + c = D := ⟨_, rfl⟩
    push_cast
    rw [hD] at hd h ⊢
    have e2 : rate - n + c = D + 1 := by linarith
    rw [e2] at ih
    have e3 : (n : ℝ) + 1 = rate + c - D := by linarith
    rw [e3] at ih
    -- (D+1) * (D * (S + t)) ≥ (D+1) * (rate * t)
    have key : (D + 1) * (rate * t) ≤ (D + 1) * (D * (S + t)) := by
      have h1 := mul_le_mul_of_nonneg_left ih hd.le
      have h2 := mul_le_mul_of_nonneg_right h t0
      nlinarith
    exact le_of_mul_le_mul_left key (by linarith)

theorem exp_taylor_le {x : ℝ} (h0 : 0 ≤ x) (h1 : x ≤ 1) : Real.exp x ≤ 1 + x + x ^ 2 / 2 + x ^ 3 / 6 + x ^ 4 / 24 + x ^ 5 / 100 := by
  have := Real.exp_bound' h0 h1 (n := 5) (by norm_num)
  simp [sum_range_succ, Nat.factorial] at this
  refine this.trans (le_of_eq ?_)
  ring

theorem le_exp_taylor {x : ℝ} (h0 : 0 ≤ x) : 1 + x + x ^ 2 / 2 + x ^ 3 / 6 + x ^ 4 / 24 ≤ Real.exp x := by
  have := Real.sum_le_exp_of_nonneg h0 5
  simp [sum_range_succ, Nat.factorial] at this
  linarith

/-- `log (1 + y)` for small `y` -/
theorem log_near {y : ℝ} (h0 : 0 ≤ y) (h1 : y ≤ 1 / 20) :
    |Real.log (1 + y) - (y - y ^ 2 / 2 + y ^ 3 / 3 - y ^ 4 / 4 + y ^ 5 / 5 - y ^ 6 / 6)| ≤ 2 / 20 ^ 7 := by
  have h := Real.abs_log_sub_add_sum_range_le (x := -y) (by rw [abs_neg, abs_of_nonneg h0]; linarith) 6
  rw [abs_neg, abs_of_nonneg h0, sub_neg_eq_add] at h
  simp only [sum_range_succ, sum_range_zero] at h
  norm_num at h
  have e : Real.log (1 + y) - (y - y ^ 2 / 2 + y ^ 3 / 3 - y ^ 4 / 4 + y ^ 5 / 5 - y ^ 6 / 6) =
      -y + y ^ 2 / 2 + (-y) ^ 3 / 3 + (-y) ^ 4 / 4 + (-y) ^ 5 / 5 + (-y) ^ 6 / 6 + Real.log (1 + y) := by ring
  rw [e]
  refine h.trans ?_
  have p : y ^ 7 ≤ (1 / 20) ^ 7 := pow_le_pow_left₀ h0 h1 7
  rw [div_le_iff₀ (by linarith)]
  norm_num at p ⊢
  linarith

/-! ### rate 31684 = 178² -/

theorem e34 : (2.718281828 : ℝ) ^ 34 ≤ Real.exp 34 ∧ Real.exp 34 ≤ (2.718281829 : ℝ) ^ 34 := by
  rw [show (34 : ℝ) = (34 : ℕ) * 1 by norm_num, Real.exp_nat_mul]
  exact ⟨pow_le_pow_left₀ (by norm_num) (by linarith [Real.exp_one_gt_d9]) 34,
    pow_le_pow_left₀ (Real.exp_pos 1).le (by linarith [Real.exp_one_lt_d9]) 34⟩

/-- below 30219 the distribution function is less than `2^-54` -/
theorem below : ∑ i ∈ range (30218 + 1), (31684 : ℝ) ^ i * Real.exp (-31684) / i.factorial ≤ 99 / 100 / 2 ^ 54 := by
  have h1 := sum_le (rate := 31684) (by norm_num) 30218
  have h2 := pois_le (rate := 31684) (by norm_num) (n := 30218) (by norm_num)
  have hl := (abs_le.1 (log_near (y := 1466 / 30218) (by norm_num) (by norm_num))).2
  have hx : ((30218 : ℕ) : ℝ) * Real.log (31684 / (30218 : ℕ)) + (30218 : ℕ) - 31684 ≤ -(34.4509) := by
    rw [show (31684 : ℝ) / (30218 : ℕ) = 1 + 1466 / 30218 by norm_num]
    generalize Real.log (1 + 1466 / 30218) = l at hl
    norm_num at hl ⊢
    linarith
  have he : Real.exp (-(34.4509)) ≤ 1 / ((2.718281828 : ℝ) ^ 34 * 1.5694) := by
    rw [Real.exp_neg, ← one_div, show (34.4509 : ℝ) = 34 + 0.4509 by norm_num, Real.exp_add]
    apply one_div_le_one_div_of_le (by norm_num)
    refine mul_le_mul e34.1 ?_ (by norm_num) (Real.exp_pos _).le
    exact le_trans (by norm_num) (le_exp_taylor (x := 0.4509) (by norm_num))
  have hs : (435.7 : ℝ) ≤ √(2 * Real.pi * (30218 : ℕ)) := by
    refine Real.le_sqrt_of_sq_le ?_
    have := Real.pi_gt_d6
    norm_num at this ⊢
    linarith
  have h3 : Real.exp (((30218 : ℕ) : ℝ) * Real.log (31684 / (30218 : ℕ)) + (30218 : ℕ) - 31684) / √(2 * Real.pi * (30218 : ℕ)) ≤
      1 / ((2.718281828 : ℝ) ^ 34 * 1.5694) / 435.7 := by
    refine div_le_div₀ (by norm_num) ((Real.exp_le_exp.2 hx).trans he) (by norm_num) hs
  have h4 := h2.trans h3
  generalize (31684 : ℝ) ^ 30218 * Real.exp (-31684) / (Nat.factorial 30218) = t at h1 h4
  generalize ∑ i ∈ range (30218 + 1), (31684 : ℝ) ^ i * Real.exp (-31684) / i.factorial = S at h1 ⊢
  norm_num at h1 h4 ⊢
  linarith

/-- at 30219 it is more than `2^-54` -/
theorem above : 1005 / 1000 / 2 ^ 54 ≤ ∑ i ∈ range (30219 + 1), (31684 : ℝ) ^ i * Real.exp (-31684) / i.factorial := by
  have h1 := le_sum (rate := 31684) (c := 20.34) (by norm_num) (by norm_num) 30219 (by norm_num) (by norm_num)
  have h2 := le_pois (rate := 31684) (by norm_num) (n := 30219) (by norm_num)
  have hl := (abs_le.1 (log_near (y := 1465 / 30219) (by norm_num) (by norm_num))).1
  have hx : -(34.4038) ≤ ((30219 : ℕ) : ℝ) * Real.log (31684 / (30219 : ℕ)) + (30219 : ℕ) - 31684 - 1 / (12 * (30219 : ℕ)) := by
    rw [show (31684 : ℝ) / (30219 : ℕ) = 1 + 1465 / 30219 by norm_num]
    generalize Real.log (1 + 1465 / 30219) = l at hl
    norm_num at hl ⊢
    linarith
  have he : 1 / ((2.718281829 : ℝ) ^ 34 * 1.4976) ≤ Real.exp (-(34.4038)) := by
    rw [Real.exp_neg, ← one_div, show (34.4038 : ℝ) = 34 + 0.4038 by norm_num, Real.exp_add]
    apply one_div_le_one_div_of_le (by positivity)
    refine mul_le_mul e34.2 ?_ (Real.exp_pos _).le (by norm_num)
    exact (exp_taylor_le (x := 0.4038) (by norm_num) (by norm_num)).trans (by norm_num)
  have hs : √(2 * Real.pi * (30219 : ℕ)) ≤ 435.75 := by
    refine Real.sqrt_le_iff.2 ⟨by norm_num, ?_⟩
    have := Real.pi_lt_d6
    norm_num at this ⊢
    linarith
  have h3 : 1 / ((2.718281829 : ℝ) ^ 34 * 1.4976) / 435.75 ≤
      Real.exp (((30219 : ℕ) : ℝ) * Real.log (31684 / (30219 : ℕ)) + (30219 : ℕ) - 31684 - 1 / (12 * (30219 : ℕ))) /
        √(2 * Real.pi * (30219 : ℕ)) := by
    refine div_le_div₀ (Real.exp_pos _).le (he.trans (Real.exp_le_exp.2 hx)) ?_ hs
    exact Real.sqrt_pos.2 (by have := Real.pi_pos; positivity)
  have h4 := h3.trans h2
  generalize (31684 : ℝ) ^ 30219 * Real.exp (-31684) / (Nat.factorial 30219) = t at h1 h4
  generalize ∑ i ∈ range (30219 + 1), (31684 : ℝ) ^ i * Real.exp (-31684) / i.factorial = S at h1 ⊢
  norm_num at h1 h4 ⊢
  linarith

end PoisTail
end Stats

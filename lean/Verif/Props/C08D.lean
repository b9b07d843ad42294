import Verif.Props.C08
import Verif.Lemmas.Meets

/-!
# C08, continued: discrete distributions (exact arithmetic)
-/

set_option linter.unusedSectionVars false
open Classical
namespace Stats
open Fl Spec
variable [Lib] [Ideal]

theorem isValue_log_if {v : Fl} {r : ℝ} (h : 0 ≤ r) (hv : v = fin r) : IsValue (log_if v) r := by
  subst hv
  refine ⟨h, rfl, ?_⟩
  split_ifs with h0
  · simp [h0]
  · simp [ilog (lt_of_le_of_ne h (Ne.symm h0))]

theorem isValue_zero : IsValue log_zero_if 0 := by simp [IsValue]
theorem isValue_one : IsValue log_one_if 1 := by simp [IsValue]

theorem isValue_exp_if_fin {v : Fl} {r : ℝ} (h : 0 < r) (hv : v = fin (Real.log r)) :
    IsValue (fun b => exp_if v (!b)) r := by
  subst hv
  refine ⟨h.le, ?_, ?_⟩
  · simp [ideal, Real.exp_log h]
  · simp [h.ne']

theorem isValue_exp_if_ninf {v : Fl} (hv : v = ninf) : IsValue (fun b => exp_if v (!b)) 0 := by
  subst hv; simp [IsValue]

theorem C08_dbern {p : ℝ} (h0 : 0 ≤ p) (h1 : p ≤ 1) (x : ℤ) : IsValue (dbern x (fin p)) (bernPmf p x) := by
  have e0 : ¬ p < 0 := by linarith
  have e1 : ¬ 1 < p := by linarith
  have : dbern x (fin p) = log_if (fin (bernPmf p x)) := by
    funext b
    simp only [dbern, bern_ok, dbern_compute, ideal, bernPmf]
    simp [e0, e1]
    split_ifs <;> rfl
  rw [this]
  refine isValue_log_if ?_ rfl
  rw [bernPmf]; split_ifs <;> linarith
example : IsValue (dbern 2 (fin (1 / 3))) (bernPmf (1 / 3) 2) :=
  C08_dbern (p := 1 / 3) (h0 := by meets) (h1 := by meets) (x := 2)

theorem C08_dradem {p : ℝ} (h0 : 0 ≤ p) (h1 : p ≤ 1) (x : ℤ) : IsValue (dradem x (fin p)) (rademPmf p x) := by
  have e0 : ¬ p < 0 := by linarith
  have e1 : ¬ 1 < p := by linarith
  have : dradem x (fin p) = log_if (fin (rademPmf p x)) := by
    funext b
    simp only [dradem, radem_ok, dradem_compute, ideal, rademPmf]
    simp [e0, e1]
    split_ifs <;> rfl
  rw [this]
  refine isValue_log_if ?_ rfl
  rw [rademPmf]; split_ifs <;> linarith
example : IsValue (dradem 2 (fin (1 / 3))) (rademPmf (1 / 3) 2) :=
  C08_dradem (p := 1 / 3) (h0 := by meets) (h1 := by meets) (x := 2)

theorem mul_ninf_of_pos {r : ℝ} (h : 0 < r) : fin r * ninf = ninf := by
  rw [fin_mul_ninf, if_neg h.ne', if_pos h]

theorem C08_dbinom (n : ℕ) {p : ℝ} (h0 : 0 ≤ p) (h1 : p ≤ 1) (x : ℤ) :
    IsValue (dbinom x n (fin p)) (binomPmf n p x) := by
  have e0 : ¬ p < 0 := by linarith
  have e1 : ¬ 1 < p := by linarith
  have hok : binom_ok n (fin p) := by simp [binom_ok, e0, e1]
  have hq : 0 ≤ 1 - p := by linarith
  by_cases hx : x < 0 ∨ (n : ℤ) < x
  · have : dbinom x n (fin p) = log_zero_if := by
      funext b; rw [dbinom, if_neg (not_not.2 hok), if_pos hx]
    rw [this, binomPmf, if_neg (by omega)]
    exact isValue_zero
  obtain ⟨k, rfl⟩ := Int.eq_ofNat_of_zero_le (a := x) (by omega)
  have hkn : k ≤ n := by omega
  have hpmf : binomPmf n p k = n.choose k * p ^ k * (1 - p) ^ (n - k) := by
    rw [binomPmf, if_pos (by omega)]; simp
  rw [hpmf]
  by_cases hn0 : n = 0
  · subst hn0
    obtain rfl : k = 0 := by omega
    have : dbinom (0 : ℕ) (0 : ℕ) (fin p) = log_if (fin 1) := by
      funext b; rw [dbinom, if_neg (not_not.2 hok), if_neg hx, if_pos (by simp)]; simp [dbinom_limit_vals]
    rw [this]
    exact isValue_log_if (by norm_num) (by simp)
  by_cases hn1 : n = 1
  · subst hn1
    have : dbinom k (1 : ℕ) (fin p) = dbern k (fin p) := by
      funext b; rw [dbinom, if_neg (not_not.2 hok), if_neg hx, if_neg (by simp), if_pos (by simp)]
    rw [this]
    have h := C08_dbern h0 h1 k
    interval_cases k
    · simpa [bernPmf] using h
    · simpa [bernPmf] using h
  have : dbinom k n (fin p) = fun b => exp_if (dbinom_log_compute k n (fin p)) (!b) := by
    funext b
    rw [dbinom, if_neg (not_not.2 hok), if_neg hx, if_neg (by omega), if_neg (by omega)]
  rw [this]
  have hnpos : (0 : ℝ) < n := by exact_mod_cast Nat.pos_of_ne_zero hn0
  rw [dbinom_log_compute]
  split_ifs with hk0 hkN
  · obtain rfl : k = 0 := by omega
    rcases hq.eq_or_lt with hq0 | hq0
    · have hz : (((0 : ℕ) : ℝ) = 0) := by norm_num
      rw [← hq0]
      have : (0 : ℝ) ^ n = 0 := zero_pow hn0
      simp only [Nat.choose_zero_right, pow_zero, Nat.sub_zero, this, mul_zero]
      apply isValue_exp_if_ninf
      simp only [ideal, ← hq0, log_fin_zero]
      simp [mul_ninf_of_pos hnpos]
    · apply isValue_exp_if_fin
      · simp; positivity
      · simp only [ideal, ilog hq0]; simp
  · obtain rfl : k = n := by omega
    rcases h0.eq_or_lt with hp0 | hp0
    · subst hp0
      have : (0 : ℝ) ^ k = 0 := zero_pow hn0
      simp only [this, mul_zero, zero_mul]
      apply isValue_exp_if_ninf
      simp [ideal, mul_ninf_of_pos hnpos]
    · apply isValue_exp_if_fin
      · simp; positivity
      · simp only [ideal, ilog hp0]; simp
  · have hkpos : (0 : ℝ) < k := by
      have : 0 < k := by omega
      exact_mod_cast this
    have hnk : (0 : ℝ) < ((n : ℤ) - (k : ℤ) : ℤ) := by
      have : 0 < (n : ℤ) - k := by omega
      exact_mod_cast this
    have hnk' : n - k ≠ 0 := by omega
    have hc : (0 : ℝ) < n.choose k := by exact_mod_cast Nat.choose_pos hkn
    have hnk2 : ((n - k : ℕ) : ℝ) = (n : ℝ) - k := by push_cast [hkn]; ring
    rcases h0.eq_or_lt with hp0 | hp0
    · subst hp0
      have : (0 : ℝ) ^ k = 0 := zero_pow (by omega)
      simp only [this, mul_zero, zero_mul]
      apply isValue_exp_if_ninf
      simp [ideal, mul_ninf_of_pos hkpos, ilbinom hkn]
    · rcases hq.eq_or_lt with hq0 | hq0
      · rw [← hq0]
        have : (0 : ℝ) ^ (n - k) = 0 := zero_pow hnk'
        simp only [this, mul_zero]
        apply isValue_exp_if_ninf
        simp only [ideal, ← hq0, log_fin_zero, ilbinom hkn, ilog hp0, mul_ninf_of_pos hnk]
        simp
      · apply isValue_exp_if_fin
        · positivity
        · simp only [ideal, ilog hp0, ilog hq0, ilbinom hkn]
          rw [Real.log_mul (by positivity) (by positivity), Real.log_mul (by positivity) (by positivity),
            Real.log_pow, Real.log_pow, hnk2]
          push_cast
          rfl
example : IsValue (dbinom 2 5 (fin (1 / 3))) (binomPmf 5 (1 / 3) 2) :=
  C08_dbinom (n := 5) (p := 1 / 3) (h0 := by meets) (h1 := by meets) (x := 2)

theorem C08_dpois {rate : ℝ} (h0 : 0 ≤ rate) (x : ℤ) : IsValue (dpois x (fin rate)) (poisPmf rate x) := by
  have e0 : ¬ rate < 0 := by linarith
  have hok : pois_ok (fin rate) := by simp [pois_ok, e0]
  by_cases hx : x < 0
  · have : dpois x (fin rate) = log_zero_if := by
      funext b; rw [dpois, if_neg (not_not.2 hok), if_pos hx]
    rw [this, poisPmf, if_neg (by omega)]
    exact isValue_zero
  obtain ⟨k, rfl⟩ := Int.eq_ofNat_of_zero_le (a := x) (by omega)
  have hpmf : poisPmf rate k = rate ^ k * Real.exp (-rate) / k.factorial := by
    rw [poisPmf, if_pos (by omega)]; simp
  rw [hpmf]
  rcases h0.eq_or_lt with hr | hr
  · subst hr
    rcases Nat.eq_zero_or_pos k with rfl | hk
    · have : dpois (0 : ℕ) (fin 0) = log_one_if := by
        funext b; simp [dpois, pois_ok]
      rw [this]; simpa using isValue_one
    · have h0k : k ≠ 0 := by omega
      have : dpois k (fin 0) = log_zero_if := by
        funext b; simp [dpois, pois_ok, h0k]
      rw [this, zero_pow h0k]; simpa using isValue_zero
  · have : dpois k (fin rate) = fun b => exp_if (dpois_log_compute k (fin rate)) (!b) := by
      funext b
      rw [dpois, if_neg (not_not.2 hok), if_neg hx, if_neg (by simp [hr.ne']), if_neg (by simp)]
    rw [this]
    have hf : (0 : ℝ) < k.factorial := by exact_mod_cast k.factorial_pos
    apply isValue_exp_if_fin
    · positivity
    · have hk1 : (0 : ℝ) < (((k : ℤ) + 1 : ℤ) : ℝ) := by push_cast; positivity
      simp only [dpois_log_compute, ideal, ilog hr, ilgamma hk1]
      rw [Real.log_div (by positivity) (by positivity), Real.log_mul (by positivity) (by positivity),
        Real.log_pow, Real.log_exp]
      push_cast
      rw [Real.Gamma_nat_eq_factorial]
      rfl
example : IsValue (dpois 2 (fin 2)) (poisPmf 2 2) := C08_dpois (rate := 2) (h0 := by meets) (x := 2)

end Stats

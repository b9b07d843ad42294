import Verif.Lemmas.Trace
import Verif.Spec.Defined
import Verif.Lemmas.Moment2
import Verif.Props.C18

/-!
# C56: no integer overflow and no undefined conversion; C57: number and depth of the calls

The recursive functions, written with checked 64-bit arithmetic (`Model/Trace.lean`), return the values of the
model with unbounded integers.
-/

set_option linter.unusedSectionVars false
open Classical
namespace Stats
open Fl Out Spec

section every
variable [Lib]

/-! ### The binomial functions -/

theorem dbinomT_eq {x n : ℤ} (hn : InLL n) (prob : Fl) (b : Bool) :
    dbinomT x n prob b = ret (dbinom x n prob b) 1 1 := by
  rw [dbinomT, dbinom]
  by_cases h1 : ¬ binom_ok n prob
  · rw [if_pos h1, if_pos h1]; rfl
  rw [if_neg h1, if_neg h1]
  by_cases h2 : x < 0 ∨ x > n
  · rw [if_pos h2, if_pos h2]; rfl
  rw [if_neg h2, if_neg h2]
  by_cases h3 : n = 0
  · rw [if_pos h3, if_pos h3]; rfl
  rw [if_neg h3, if_neg h3]
  by_cases h4 : n = 1
  · rw [if_pos h4, if_pos h4]; rfl
  rw [if_neg h4, if_neg h4, dbinom_log_computeT, dbinom_log_compute]
  by_cases h5 : x = 0
  · rw [if_pos h5, if_pos h5]; rfl
  rw [if_neg h5, if_neg h5]
  by_cases h6 : x = n
  · rw [if_pos h6, if_pos h6]; rfl
  rw [if_neg h6, if_neg h6, llOp_of ⟨by omega, by have := hn.2; omega⟩]
  rfl

theorem pbinom_computeT_eq {x n : ℤ} (hx : x < n) (hn : InLL n) (prob : Fl) (m : ℕ) (count : ℤ) (hc : 0 ≤ count)
    (hm : count + m = x) :
    pbinom_computeT x n prob (m + 1) count = ret (pbinom_compute n prob m count) (2 * (m + 1)) (m + 2) := by
  induction m generalizing count with
  | zero =>
    rw [pbinom_computeT, if_pos (by omega), dbinomT_eq hn, pbinom_compute]; rfl
  | succ m ih =>
    rw [pbinom_computeT, if_neg (by omega), dbinomT_eq hn, pbinom_compute,
      llOp_of ⟨by omega, by have := hn.2; omega⟩]
    simp only [done_andThen]
    rw [ih (count + 1) (by omega) (by omega)]
    simp only [andThen, call_ret, done]
    congr 1
    all_goals omega

theorem pbinomT_compute {x n : ℤ} (h0 : 0 ≤ x) (hx : x < n) (hn : InLL n) (prob : Fl) :
    run (fun fuel => pbinom_computeT x n prob fuel 0) =
      ret (pbinom_compute n prob x.toNat 0) (2 * (x.toNat + 1)) (x.toNat + 2) :=
  run_eq (fun m h => pbinom_computeT_mono x n prob m 0 h)
    (pbinom_computeT_eq hx hn prob x.toNat 0 le_rfl (by omega)) (by simp)

/-- whether `pbinom` adds up densities -/
def pbinomSums (x n : ℤ) (prob : Fl) : Prop := binom_ok n prob ∧ 0 ≤ x ∧ x < n ∧ n ≠ 1

theorem pbinomT_eq {x n : ℤ} (hn : InLL n) (prob : Fl) (b : Bool) :
    pbinomT x n prob b = ret (pbinom x n prob b) (if pbinomSums x n prob then 2 * x.toNat + 3 else 1)
      (if pbinomSums x n prob then x.toNat + 3 else 1) := by
  rw [pbinomT, pbinom]
  by_cases h1 : ¬ binom_ok n prob
  · rw [if_pos h1, if_pos h1, if_neg (by unfold pbinomSums; tauto), if_neg (by unfold pbinomSums; tauto)]; rfl
  rw [if_neg h1, if_neg h1]
  by_cases h2 : x < 0
  · rw [if_pos h2, if_pos h2, if_neg (by unfold pbinomSums; omega), if_neg (by unfold pbinomSums; omega)]; rfl
  rw [if_neg h2, if_neg h2]
  by_cases h3 : x ≥ n
  · rw [if_pos h3, if_pos h3, if_neg (by unfold pbinomSums; omega), if_neg (by unfold pbinomSums; omega)]; rfl
  rw [if_neg h3, if_neg h3]
  by_cases h4 : n = 1
  · rw [if_pos h4, if_pos h4, if_neg (by unfold pbinomSums; tauto), if_neg (by unfold pbinomSums; tauto)]; rfl
  have hs : pbinomSums x n prob := ⟨not_not.1 h1, by omega, by omega, h4⟩
  rw [if_neg h4, if_neg h4, if_pos hs, if_pos hs, pbinomT_compute (by omega) (by omega) hn, sub_zero]
  rfl

theorem qbinom_recurT_stops {n : ℤ} (hn : InLL n) (p prob : Fl) (d : ℕ) (v : Fl) (c : ℤ) (hc : 0 ≤ c)
    (hr : c + d + 1 ≤ 2 ^ 63 - 1) (hv : v < p) (h : ∀ j : ℕ, j < d → pbinom (c + j) n prob false < p)
    (hk : ¬ pbinom (c + d) n prob false < p) :
    ∃ w e, qbinom_recurT p n prob (d + 2) v c = ret (ofInt (c + d)) w e ∧
      w ≤ (d + 1) * (2 * (c.toNat + d) + 4) + 1 ∧ e ≤ c.toNat + 2 * d + 4 ∧
      ((∀ j : ℕ, j ≤ d → pbinomSums (c + j) n prob) →
        w = (d + 1) * (2 * c.toNat + d + 4) + 1 ∧ e = c.toNat + 2 * d + 4) := by
  induction d generalizing v c with
  | zero =>
    rw [Nat.cast_zero, add_zero] at hk
    have e1 : qbinom_recurT p n prob 1 (pbinom c n prob false) (c + 1) = ret (ofInt c) 1 1 := by
      rw [qbinom_recurT, if_neg hk, llOp_of ⟨by omega, by omega⟩]
      simp
    rw [qbinom_recurT, if_pos hv, pbinomT_eq hn, llOp_of ⟨by omega, by omega⟩]
    simp only [done_andThen]
    simp only [andThen, e1, call_ret, Nat.cast_zero, add_zero]
    refine ⟨_, _, rfl, ?_, ?_, fun hs => ?_⟩
    · split_ifs <;> omega
    · split_ifs <;> omega
    · have := hs 0 le_rfl
      rw [Nat.cast_zero, add_zero] at this
      rw [if_pos this, if_pos this]
      constructor <;> omega
  | succ d ih =>
    have h0 := h 0 (by omega)
    rw [Nat.cast_zero, add_zero] at h0
    obtain ⟨w, e, he, hw, hd, hs⟩ := ih (pbinom c n prob false) (c + 1) (by omega) (by push_cast at hr; omega) h0
      (fun j hj => by have := h (j + 1) (by omega); push_cast at this; rwa [show c + 1 + (j : ℤ) = c + (j + 1) by ring])
      (by push_cast at hk; rwa [show c + 1 + (d : ℤ) = c + (d + 1) by ring])
    rw [qbinom_recurT, if_pos hv, pbinomT_eq hn, llOp_of ⟨by omega, by push_cast at hr; omega⟩]
    simp only [done_andThen]
    simp only [andThen, he, call_ret]
    have ht : (c + 1).toNat = c.toNat + 1 := by omega
    rw [ht] at hw hd hs
    refine ⟨_, _, by push_cast; rw [show c + 1 + (d : ℤ) = c + (d + 1) by ring], ?_, ?_, fun hs' => ?_⟩
    · have : (if pbinomSums c n prob then 2 * c.toNat + 3 else 1) ≤ 2 * c.toNat + 3 := by split_ifs <;> omega
      have e1 : (d + 1) * (2 * (c.toNat + 1 + d) + 4) + (2 * (c.toNat + 1 + d) + 4) = (d + 1 + 1) * (2 * (c.toNat + (d + 1)) + 4) := by
        ring
      omega
    · split_ifs <;> omega
    · obtain ⟨e1, e2⟩ := hs (fun j hj => by
        have := hs' (j + 1) (by omega)
        push_cast at this; rwa [show c + 1 + (j : ℤ) = c + (j + 1) by ring])
      have h1 := hs' 0 (by omega)
      rw [Nat.cast_zero, add_zero] at h1
      rw [if_pos h1, if_pos h1, e1, e2]
      constructor
      · ring
      · omega

/-! ### The Poisson functions -/

theorem InLL_fact {r : ℤ} (h0 : 0 ≤ r) (h : r ≤ 15) : InLL (r.toNat.factorial : ℤ) := by
  have := Nat.factorial_le (show r.toNat ≤ 15 by omega)
  have e : Nat.factorial 15 = 1307674368000 := by decide
  constructor <;> omega

theorem ppois_recurT_tail {x : ℤ} (hx : 2 ≤ x) (hx' : x ≤ 15) (rate : Fl) (m : ℕ) (r : ℕ) (hr : 1 ≤ r)
    (hm : (r : ℤ) + m = x) :
    ppois_compute_recurT x rate (m + 1) r = ret (ppois_compute_recur_tail rate m r) (m + 1) (m + 1) := by
  induction m generalizing r with
  | zero =>
    rw [ppois_compute_recurT, if_neg (by omega), if_neg (by omega), if_neg (by omega), if_neg (by omega),
      llOp_of (InLL_fact (by omega) (by omega)), ppois_compute_recur_tail]
    simp
  | succ m ih =>
    have := ih (r + 1) (by omega) (by push_cast at hm ⊢; omega)
    rw [ppois_compute_recurT, if_neg (by omega), if_neg (by omega), if_neg (by omega), if_pos (by omega),
      llOp_of (InLL_fact (by omega) (by omega)), llOp_of ⟨by omega, by omega⟩, ppois_compute_recur_tail]
    push_cast at this
    simp only [done_andThen, this, ret_andThen_done, call_ret, Int.toNat_natCast]

theorem ppois_recurT_eq {x : ℤ} (h0 : 0 ≤ x) (h : x ≤ 15) (rate : Fl) :
    ∃ w ≤ 16, run (fun fuel => ppois_compute_recurT x rate fuel 0) = ret (ppois_compute_recur x rate) w w := by
  have hmono := fun m h => ppois_compute_recurT_mono x rate m 0 h
  rw [ppois_compute_recur]
  by_cases h1 : x = 0
  · refine ⟨1, by omega, run_eq hmono (n := 1) ?_ (by simp)⟩
    rw [ppois_compute_recurT, if_pos h1, if_pos h1]; rfl
  by_cases h2 : x = 1
  · refine ⟨1, by omega, run_eq hmono (n := 1) ?_ (by simp)⟩
    rw [ppois_compute_recurT, if_neg h1, if_neg h1, if_pos h2, if_pos h2]; rfl
  have ht := ppois_recurT_tail (x := x) (by omega) h rate (x - 1).toNat 1 le_rfl (by push_cast; omega)
  refine ⟨(x - 1).toNat + 2, by omega, run_eq hmono (n := (x - 1).toNat + 2) ?_ (by simp)⟩
  rw [ppois_compute_recurT, if_neg h1, if_neg h1, if_neg h2, if_neg h2, if_pos rfl, llOp_of ⟨by omega, by omega⟩]
  push_cast at ht
  simp only [done_andThen, zero_add, ht, ret_andThen_done, call_ret]

/-- whether `ppois` goes through the incomplete gamma function -/
def ppoisGamma (x : ℤ) (rate : Fl) : Prop :=
  pois_ok rate ∧ 0 ≤ x ∧ ¬ isPosinf rate ∧ (rate > 10 ∨ x > 15)

theorem ppoisT_eq {x : ℤ} (hx : x < 2 ^ 63 - 1) (rate : Fl) (b : Bool) :
    ∃ w ≤ 17, ppoisT x rate b = ret (ppois x rate b) w w := by
  rw [ppoisT, ppois]
  by_cases h1 : ¬ pois_ok rate
  · rw [if_pos h1, if_pos h1]; exact ⟨1, by omega, rfl⟩
  rw [if_neg h1, if_neg h1]
  by_cases h2 : x < 0
  · rw [if_pos h2, if_pos h2]; exact ⟨1, by omega, rfl⟩
  rw [if_neg h2, if_neg h2]
  by_cases h3 : isPosinf rate
  · rw [if_pos h3, if_pos h3]; exact ⟨1, by omega, rfl⟩
  rw [if_neg h3, if_neg h3, ppois_compute]
  by_cases h4 : rate > 10 ∨ x > 15
  · rw [if_pos h4, if_pos h4, llOp_of ⟨by omega, by omega⟩]; exact ⟨1, by omega, by simp⟩
  rw [if_neg h4, if_neg h4]
  obtain ⟨w, hw, e⟩ := ppois_recurT_eq (x := x) (by omega) (by omega) rate
  exact ⟨w + 1, by omega, by rw [e]; simp⟩

/-- In the gamma branch the greatest integer overflows. -/
theorem ppoisT_ub {rate : Fl} (h : pois_ok rate) (hi : ¬ isPosinf rate) (b : Bool) :
    ppoisT (2 ^ 63 - 1) rate b = ub := by
  rw [ppoisT, if_neg (not_not.2 h), if_neg (by norm_num), if_neg hi, if_pos (Or.inr (by norm_num)),
    llOp_not (by simp [InLL])]
  rfl

theorem dpoisT_eq {x : ℤ} (hx : x < 2 ^ 63 - 1) (rate : Fl) (b : Bool) : dpoisT x rate b = ret (dpois x rate b) 1 1 := by
  rw [dpoisT, dpois]
  by_cases h1 : ¬ pois_ok rate
  · rw [if_pos h1, if_pos h1]; rfl
  rw [if_neg h1, if_neg h1]
  by_cases h2 : x < 0
  · rw [if_pos h2, if_pos h2]; rfl
  rw [if_neg h2, if_neg h2]
  by_cases h3 : rate ==. 0
  · rw [if_pos h3, if_pos h3]; split_ifs <;> rfl
  rw [if_neg h3, if_neg h3]
  by_cases h4 : isPosinf rate
  · rw [if_pos h4, if_pos h4]; rfl
  rw [if_neg h4, if_neg h4, llOp_of ⟨by omega, by omega⟩]
  simp [dpois_log_compute]

theorem qpois_searchT_stops (p rate : Fl) (d : ℕ) (v : Fl) (c : ℤ) (hc : 0 ≤ c)
    (hr : c + d < 2 ^ 63 - 1) (hv : v ≤ p) (h : ∀ j : ℕ, j < d → ppois (c + j) rate false ≤ p)
    (hk : ¬ ppois (c + d) rate false ≤ p) :
    ∃ w e, qpois_right_searchT p rate (d + 2) v c = ret (ofInt (c + d)) w e ∧
      d + 2 ≤ w ∧ w ≤ 18 * (d + 1) + 1 ∧ d + 2 ≤ e ∧ e ≤ d + 18 := by
  induction d generalizing v c with
  | zero =>
    rw [Nat.cast_zero, add_zero] at hk
    have e1 : qpois_right_searchT p rate 1 (ppois c rate false) (c + 1) = ret (ofInt c) 1 1 := by
      rw [qpois_right_searchT, if_neg hk, if_pos (by omega), llOp_of ⟨by omega, by omega⟩]
      simp
    obtain ⟨w, hw, e2⟩ := ppoisT_eq (x := c) (by omega) rate false
    rw [qpois_right_searchT, if_pos hv, e2, llOp_of ⟨by omega, by omega⟩]
    simp only [done_andThen]
    simp only [andThen, e1, call_ret, Nat.cast_zero, add_zero]
    exact ⟨_, _, rfl, by omega, by omega, by omega, by omega⟩
  | succ d ih =>
    have h0 := h 0 (by omega)
    rw [Nat.cast_zero, add_zero] at h0
    obtain ⟨w, e, he, hw, hw', hd, hd'⟩ := ih (ppois c rate false) (c + 1) (by omega) (by push_cast at hr; omega) h0
      (fun j hj => by have := h (j + 1) (by omega); push_cast at this; rwa [show c + 1 + (j : ℤ) = c + (j + 1) by ring])
      (by push_cast at hk; rwa [show c + 1 + (d : ℤ) = c + (d + 1) by ring])
    obtain ⟨w', hw1, e2⟩ := ppoisT_eq (x := c) (by push_cast at hr; omega) rate false
    rw [qpois_right_searchT, if_pos hv, e2, llOp_of ⟨by omega, by push_cast at hr; omega⟩]
    simp only [done_andThen]
    simp only [andThen, he, call_ret]
    exact ⟨_, _, by push_cast; rw [show c + 1 + (d : ℤ) = c + (d + 1) by ring], by omega, by omega, by omega, by omega⟩

/-- The search runs into the greatest integer if the distribution function stays below the probability. -/
theorem qpois_searchT_ub {p rate : Fl} (hok : pois_ok rate) (hi : ¬ isPosinf rate) (d : ℕ) (v : Fl) (c : ℤ) (hc : 0 ≤ c)
    (hr : c + d = 2 ^ 63 - 1) (hv : v ≤ p) (h : ∀ j : ℕ, j < d → ppois (c + j) rate false ≤ p) :
    qpois_right_searchT p rate (d + 1) v c = ub := by
  induction d generalizing v c with
  | zero =>
    obtain rfl : c = 2 ^ 63 - 1 := by omega
    rw [qpois_right_searchT, if_pos hv, ppoisT_ub hok hi]; rfl
  | succ d ih =>
    have h0 := h 0 (by omega)
    rw [Nat.cast_zero, add_zero] at h0
    have he := ih (ppois c rate false) (c + 1) (by omega) (by push_cast at hr; omega) h0
      (fun j hj => by have := h (j + 1) (by omega); push_cast at this; rwa [show c + 1 + (j : ℤ) = c + (j + 1) by ring])
    obtain ⟨w', hw1, e2⟩ := ppoisT_eq (x := c) (by push_cast at hr; omega) rate false
    rw [qpois_right_searchT, if_pos hv, e2, llOp_of ⟨by omega, by push_cast at hr; omega⟩]
    simp only [done_andThen]
    simp only [andThen, he, call_ub]

/-! ### The inverse Gaussian quantile -/

theorem qinvgauss_iterT_eq (p mu lambda : Fl) (m : ℕ) (qn : Fl) (count : ℤ) (h0 : 0 ≤ count)
    (hm : count + m = QINVGAUSS_MAX_ITER) :
    ∃ w ≤ 4 * m + 3, ∃ e ≤ 2 * m + 2, qinvgauss_iterT p mu lambda (m + 1) qn count =
      ret (qinvgauss_compute_iter p mu lambda m qn) w e := by
  induction m generalizing qn count with
  | zero =>
    rw [qinvgauss_iterT]
    simp only [call_done, andThen]
    rw [if_neg (show ¬ count < (QINVGAUSS_MAX_ITER : ℤ) by push_cast at hm; omega), ite_self]
    exact ⟨3, by omega, 2, by omega, rfl⟩
  | succ m ih =>
    rw [qinvgauss_iterT, qinvgauss_compute_iter]
    simp only [call_done, andThen]
    by_cases h1 : abs (p - pinvgauss qn mu lambda false) < minpos
    · rw [if_pos h1, if_pos h1]
      exact ⟨3, by omega, 2, by omega, rfl⟩
    rw [if_neg h1, if_neg h1, if_pos (by omega), intOp, if_pos ⟨by omega, by
      have : QINVGAUSS_MAX_ITER = 100 := rfl
      omega⟩]
    obtain ⟨w, hw, e, he, h⟩ := ih (qn + (p - pinvgauss qn mu lambda false) / dinvgauss qn mu lambda false) (count + 1)
      (by omega) (by push_cast at hm; omega)
    simp only [done, h, call_ret]
    exact ⟨_, by omega, _, by omega, rfl⟩

/-! ## C56: every operation on integers is defined -/

/-- `dbinom` for all integers. -/
theorem C56_dbinom (x : ℤ) {n : ℤ} (hn : InLL n) (prob : Fl) (b : Bool) :
    Defined (dbinomT x n prob b) (dbinom x n prob b) := ⟨1, 1, dbinomT_eq hn prob b⟩

/-- `pbinom` for all integers; the recursion ends. -/
theorem C56_pbinom (x : ℤ) {n : ℤ} (hn : InLL n) (prob : Fl) (b : Bool) :
    Defined (pbinomT x n prob b) (pbinom x n prob b) := ⟨_, _, pbinomT_eq hn prob b⟩

/-- `qbinom` for all probabilities and all numbers of trials but the greatest integer. -/
theorem C56_qbinom_partial {n : ℤ} (hn : -2 ^ 63 ≤ n) (hn' : n < 2 ^ 63 - 1) (p prob : Fl) :
    ∃ v, qbinom p n prob = some v ∧ Defined (qbinomT p n prob) v := by
  have hL : InLL n := ⟨hn, hn'.le⟩
  rw [qbinomT]
  by_cases h1 : ¬ binom_ok n prob
  · exact ⟨nan, by rw [qbinom, if_pos h1], 1, 1, by rw [if_pos h1]; rfl⟩
  rw [if_neg h1]
  by_cases h2 : ¬ prob_val_ok p
  · exact ⟨nan, by rw [qbinom, if_neg h1, if_pos h2], 1, 1, by rw [if_pos h2]; rfl⟩
  rw [if_neg h2]
  by_cases h3 : p ==. 0
  · exact ⟨0, by rw [qbinom, if_neg h1, if_neg h2, if_pos h3], 1, 1, by rw [if_pos h3]; rfl⟩
  rw [if_neg h3]
  by_cases h4 : p ==. 1
  · exact ⟨ofInt n, by rw [qbinom, if_neg h1, if_neg h2, if_neg h3, if_pos h4], 1, 1, by rw [if_pos h4]; rfl⟩
  rw [if_neg h4]
  obtain ⟨k, k0, kn, hq, -, hlt, hge⟩ := qbinom_first (not_not.1 h1) (not_not.1 h2) h3 h4
  have hpos : (0 : Fl) < p := by
    obtain ⟨a, b, c⟩ := not_not.1 h2
    cases p <;> simp_all
    exact lt_of_le_of_ne b (Ne.symm h3)
  obtain ⟨w, e, hr, -⟩ := qbinom_recurT_stops hL p prob k.toNat 0 0 le_rfl (by omega) hpos
    (fun j hj => hlt _ (by omega) (by omega)) (by rwa [zero_add, Int.toNat_of_nonneg k0])
  rw [zero_add, Int.toNat_of_nonneg k0] at hr
  exact ⟨ofInt k, hq, w + 1, e + 1, by
    rw [run_eq (fun m h => qbinom_recurT_mono p n prob 0 0 m h) hr (by simp)]; rfl⟩

/-- `dpois` for all integers but the greatest. -/
theorem C56_dpois_partial {x : ℤ} (hx : x < 2 ^ 63 - 1) (rate : Fl) (b : Bool) :
    Defined (dpoisT x rate b) (dpois x rate b) := ⟨1, 1, dpoisT_eq hx rate b⟩

/-- At the greatest integer `x + 1` overflows, for every positive rate. -/
theorem C56_dpois_violated {rate : ℝ} (h : 0 < rate) (b : Bool) : dpoisT (2 ^ 63 - 1) (fin rate) b = ub := by
  rw [dpoisT, if_neg (by simp [pois_ok, h.le]), if_neg (by norm_num), if_neg (by simp [h.ne']), if_neg (by simp),
    llOp_not (by simp [InLL])]
  rfl

/-- `ppois` for all integers but the greatest; the factorials fit. -/
theorem C56_ppois_partial {x : ℤ} (hx : x < 2 ^ 63 - 1) (rate : Fl) (b : Bool) :
    Defined (ppoisT x rate b) (ppois x rate b) := by
  obtain ⟨w, -, h⟩ := ppoisT_eq hx rate b
  exact ⟨w, w, h⟩

/-- At the greatest integer `x + 1` overflows, for every finite rate. -/
theorem C56_ppois_violated {rate : ℝ} (h : 0 ≤ rate) (b : Bool) : ppoisT (2 ^ 63 - 1) (fin rate) b = ub :=
  ppoisT_ub (by simp [pois_ok, h]) (by simp) b

theorem qinvgaussT_eq (p mu lambda : Fl) :
    ∃ w d, qinvgaussT p mu lambda = ret (qinvgauss p mu lambda) w d ∧ w ≤ 404 ∧ d ≤ 203 := by
  rw [qinvgaussT, qinvgauss]
  by_cases h1 : ¬ invgauss_ok mu lambda
  · rw [if_pos h1, if_pos h1]; exact ⟨1, 1, rfl, by omega, by omega⟩
  rw [if_neg h1, if_neg h1]
  by_cases h2 : ¬ prob_val_ok p
  · rw [if_pos h2, if_pos h2]; exact ⟨1, 1, rfl, by omega, by omega⟩
  rw [if_neg h2, if_neg h2]
  by_cases h3 : isPosinf lambda
  · rw [if_pos h3, if_pos h3]; exact ⟨1, 1, rfl, by omega, by omega⟩
  rw [if_neg h3, if_neg h3]
  by_cases h4 : mu ==. 0
  · rw [if_pos h4, if_pos h4]; exact ⟨1, 1, rfl, by omega, by omega⟩
  rw [if_neg h4, if_neg h4]
  by_cases h5 : lambda ==. 0
  · rw [if_pos h5, if_pos h5]; split_ifs <;> exact ⟨1, 1, rfl, by omega, by omega⟩
  rw [if_neg h5, if_neg h5]
  by_cases h6 : p ==. 1
  · rw [if_pos h6, if_pos h6]; exact ⟨1, 1, rfl, by omega, by omega⟩
  rw [if_neg h6, if_neg h6]
  by_cases h7 : p ==. 0
  · rw [if_pos h7, if_pos h7]; exact ⟨1, 1, rfl, by omega, by omega⟩
  rw [if_neg h7, if_neg h7]
  obtain ⟨w, hw, e, he, h⟩ := qinvgauss_iterT_eq p mu lambda QINVGAUSS_MAX_ITER (invgauss_mode mu (mu / lambda)) 0 le_rfl
    (by simp)
  rw [run_eq (fun m h => qinvgauss_iterT_mono p mu lambda _ 0 m h) h (by simp)]
  have : QINVGAUSS_MAX_ITER = 100 := rfl
  exact ⟨w + 1, e + 1, rfl, by omega, by omega⟩

/-- `qinvgauss` for all arguments; the iteration ends. -/
theorem C56_qinvgauss (p mu lambda : Fl) : Defined (qinvgaussT p mu lambda) (qinvgauss p mu lambda) := by
  obtain ⟨w, d, h, -⟩ := qinvgaussT_eq p mu lambda
  exact ⟨w, d, h⟩

theorem qpois_searchT_inf {u : ℝ} (h0 : 0 ≤ u) (d : ℕ) (v : Fl) (c : ℤ) (hc : 0 ≤ c)
    (hr : c + d = 2 ^ 63 - 1) (hv : v ≤ fin u) : qpois_right_searchT (fin u) pinf (d + 1) v c = ub := by
  have hok : pois_ok pinf := by simp [pois_ok]
  have e : ∀ k : ℤ, 0 ≤ k → ppoisT k pinf false = ret 0 1 1 := fun k hk => by
    rw [ppoisT, if_neg (not_not.2 hok), if_neg (by omega), if_pos (by simp)]; simp [log_zero_if]
  induction d generalizing v c with
  | zero =>
    rw [qpois_right_searchT, if_pos hv, e c hc, llOp_not (fun h => by have := h.2; push_cast at hr; omega)]; rfl
  | succ d ih =>
    have he := ih 0 (c + 1) (by omega) (by push_cast at hr; omega) (by simp [h0])
    rw [qpois_right_searchT, if_pos hv, e c hc, llOp_of ⟨by omega, by push_cast at hr; omega⟩]
    simp only [done_andThen]
    simp only [andThen, he, call_ub]

/-- An infinite rate passes the checks of `qpois`; then the search counts from 0 until the counter overflows. -/
theorem C56_qpois_inf_violated {u : ℝ} (h0 : 0 < u) (h1 : u < 1) : qpoisT (fin u) pinf = ub := by
  have hok : pois_ok pinf := by simp [pois_ok]
  have hp : prob_val_ok (fin u) := by simp [prob_val_ok, h0.le, h1.le]
  have hc : llCast (Fl.max 0 (qnorm (fin u) pinf (sqrt pinf) - 3)) = done 0 := by
    have : qnorm (fin u) pinf (sqrt pinf) = nan := by
      rw [qnorm, if_neg (by simp [norm_ok, sqrt]), if_neg (not_not.2 hp), if_pos (by simp [sqrt])]
    rw [this]
    simp [Fl.max, llCast, toLL, toIntegral]
  have e : ppoisT 0 pinf false = ret 0 1 1 := by
    rw [ppoisT, if_neg (not_not.2 hok), if_neg (by omega), if_pos (by simp)]; simp [log_zero_if]
  rw [qpoisT, if_neg (not_not.2 hok), if_neg (not_not.2 hp), if_neg (by simp [h0.ne']), if_neg (by simp [eps]),
    if_neg (by simp [h1.ne]), if_neg (by simp [ofNat_eq]), hc, done_andThen, e]
  have := qpois_searchT_inf h0.le (2 ^ 63 - 1) 0 0 le_rfl (by norm_num) (by simp [h0.le])
  simp only [andThen]
  rw [run_eq (fun m h => qpois_right_searchT_mono (fin u) pinf 0 0 m h) this (by simp)]
  rfl

/-! ## C57: number and depth of the calls -/

/-- `pbinom` evaluates `x + 1` densities, one inside the other. -/
theorem C57_pbinom {x n : ℤ} (h0 : 0 ≤ x) (hx : x < n) (h2 : 2 ≤ n) (hn : InLL n) {π : ℝ} (hp0 : 0 ≤ π) (hp1 : π ≤ 1)
    (b : Bool) :
    ∃ v, pbinomT x n (fin π) b = ret v (2 * x.toNat + 3) (x.toNat + 3) := by
  have hs : pbinomSums x n (fin π) := ⟨by simp [binom_ok, hp0, hp1]; omega, h0, hx, by omega⟩
  exact ⟨_, by rw [pbinomT_eq hn, if_pos hs, if_pos hs]⟩

/-- `qbinom` starts every sum again: the number of calls is quadratic in the value it returns. -/
theorem C57_qbinom {n : ℤ} (h2 : 2 ≤ n) (hn : n < 2 ^ 63 - 1) {π u : ℝ} (hp0 : 0 ≤ π) (hp1 : π ≤ 1) (h0 : 0 < u) (h1 : u < 1) :
    ∃ k w d : ℕ, (k : ℤ) ≤ n ∧ qbinom (fin u) n (fin π) = some (ofInt k) ∧
      qbinomT (fin u) n (fin π) = ret (ofInt k) w d ∧ w ≤ (k + 1) * (2 * k + 4) + 2 ∧ d ≤ 2 * k + 5 ∧
      ((k : ℤ) < n → w = (k + 1) * (k + 4) + 2 ∧ d = 2 * k + 5) := by
  have hL : InLL n := ⟨by omega, hn.le⟩
  have hok : binom_ok n (fin π) := by simp [binom_ok, hp0, hp1]; omega
  have hp : prob_val_ok (fin u) := by simp [prob_val_ok, h0.le, h1.le]
  obtain ⟨k, k0, kn, hq, -, hlt, hge⟩ := qbinom_first hok hp (by simp [h0.ne']) (by simp [h1.ne])
  obtain ⟨m, rfl⟩ := Int.eq_ofNat_of_zero_le k0
  obtain ⟨w, e, hr, hw, he, hs⟩ := qbinom_recurT_stops hL (fin u) (fin π) m 0 0 le_rfl (by omega) (by simp [h0])
    (fun j hj => hlt _ (by omega) (by omega)) (by rwa [zero_add])
  rw [zero_add] at hr
  simp only [Int.toNat_zero, zero_add, mul_zero] at hw he hs
  refine ⟨m, w + 1, e + 1, kn, hq, ?_, by omega, by omega, fun hm => ?_⟩
  · rw [qbinomT, if_neg (not_not.2 hok), if_neg (not_not.2 hp), if_neg (by simp [h0.ne']), if_neg (by simp [h1.ne]),
      run_eq (fun m h => qbinom_recurT_mono (fin u) n (fin π) 0 0 m h) hr (by simp)]
    rfl
  · obtain ⟨a, b⟩ := hs fun j hj => ⟨hok, by omega, by omega, by omega⟩
    omega

/-- `qinvgauss` makes at most 404 calls, at most 203 at the same time. -/
theorem C57_qinvgauss (p mu lambda : Fl) : ∃ v w d, qinvgaussT p mu lambda = ret v w d ∧ w ≤ 404 ∧ d ≤ 203 :=
  ⟨_, qinvgaussT_eq p mu lambda⟩

/-- `ppois` makes at most 17 calls. -/
theorem C57_ppois {x : ℤ} (hx : x < 2 ^ 63 - 1) (rate : Fl) (b : Bool) :
    ∃ v w, ppoisT x rate b = ret v w w ∧ w ≤ 17 := by
  obtain ⟨w, hw, h⟩ := ppoisT_eq hx rate b
  exact ⟨_, w, h, hw⟩

end every

/-- Chebyshev's inequality for a mass function on the naturals. -/
theorem MassMom.tail {f : ℤ → ℝ} {m v : ℝ} (h : MassMom f m v) (hneg : ∀ k : ℤ, k < 0 → f k = 0) (K : ℤ) (hK : m < K + 1) :
    1 - cumZ f K ≤ v / (K + 1 - m) ^ 2 := by
  have h1 := h.total.sub (hasSum_cumZ hneg K)
  have h2 := h.var.div_const ((K + 1 - m) ^ 2)
  refine hasSum_le (fun j => ?_) h1 h2
  have ht : 0 < (K : ℝ) + 1 - m := by linarith
  split_ifs with hj
  · rw [sub_self]; have := h.nonneg j; positivity
  · rw [sub_zero, mul_div_right_comm]
    have hj' : (K : ℝ) + 1 ≤ j := by exact_mod_cast not_le.1 hj
    have : 1 ≤ ((j : ℝ) - m) ^ 2 / (K + 1 - m) ^ 2 := by
      rw [one_le_div (by positivity)]
      exact pow_le_pow_left₀ ht.le (by linarith) 2
    exact le_mul_of_one_le_left (h.nonneg j) this

section ideal
variable [Lib] [Ideal]

/-! ### The Poisson quantile in exact arithmetic -/

/-- the starting point before it is converted to an integer -/
theorem qpois_start_fin {rate u : ℝ} (hr : 0 < rate) (h0 : 0 < u) (h1 : u < 1) :
    ∃ r : ℝ, 0 ≤ r ∧ Fl.max 0 (qnorm (fin u) (fin rate) (sqrt (fin rate)) - 3) = fin r ∧
      qpois_trunc_normal_approx (fin u) (fin rate) = ⌊r⌋ := by
  have hs : 0 < √rate := Real.sqrt_pos.2 hr
  obtain ⟨z, hz⟩ : ∃ z, Phi z = u := by
    have hc : Continuous Phi := continuous_iff_continuousAt.2 fun z => (hasDerivAt_Phi z).continuousAt
    obtain ⟨a, ha⟩ := (tendsto_Phi_atBot.eventually_lt_const h0).exists
    obtain ⟨b, hb⟩ := (tendsto_Phi_atTop.eventually_const_lt h1).exists
    have hab : a ≤ b := by
      by_contra hc; have := strictMono_Phi (not_le.1 hc); linarith
    obtain ⟨z, -, hz⟩ := intermediate_value_Icc hab hc.continuousOn ⟨ha.le, hb.le⟩
    exact ⟨z, hz⟩
  have hq : qnorm (fin u) (fin rate) (fin √rate) = fin (rate + √rate * z) := by
    have := qnorm_inv rate hs (rate + √rate * z)
    have e : (rate + √rate * z - rate) / √rate = z := by field_simp; ring
    simp only [e, hz] at this
    exact this h0 h1
  have e : Fl.max 0 (qnorm (fin u) (fin rate) (sqrt (fin rate)) - 3) = fin (Max.max 0 (rate + √rate * z - 3)) := by
    rw [isqrt hr.le, hq]
    simp only [ofNat_eq, zero_eq, ideal, Fl.max, fin_lt_fin]
    split_ifs with h
    · rw [max_eq_right h.le]
    · rw [max_eq_left (not_lt.1 h)]
  exact ⟨_, le_max_left _ _, e, by rw [qpois_trunc_normal_approx, e, toR_fin]⟩

omit [Ideal] in
theorem llCast_fin {r : ℝ} (h : 0 ≤ r) : llCast (fin r) = if ⌊r⌋ ≤ 2 ^ 63 - 1 then done ⌊r⌋ else ub := by
  have h1 : (-2 ^ 63 : ℤ) ≤ ⌊r⌋ := by have := Int.floor_nonneg.2 h; omega
  simp only [llCast, toLL, toIntegral, if_pos h]
  by_cases h2 : ⌊r⌋ ≤ 2 ^ 63 - 1
  · rw [if_pos ⟨h1, h2⟩, if_pos h2]
  · rw [if_neg (fun h => h2 h.2), if_neg h2]

/-- The search from a starting point at most `k`. -/
theorem qpois_search_run {rate u : ℝ} (hr : 0 ≤ rate) {v : Fl} {c k : ℤ} (hc : 0 ≤ c) (hck : c ≤ k) (hv : v ≤ fin u)
    (hlt : ∀ j, 0 ≤ j → j < k → ppois j (fin rate) false ≤ fin u) (hk : ¬ ppois k (fin rate) false ≤ fin u) :
    (k ≤ 2 ^ 63 - 2 → ∃ w d : ℕ, run (fun fuel => qpois_right_searchT (fin u) (fin rate) fuel v c) = ret (fin k) w d ∧
      k - c + 2 ≤ w ∧ w ≤ 18 * (k - c + 1) + 1 ∧ k - c + 2 ≤ d ∧ d ≤ k - c + 18) ∧
    (2 ^ 63 - 2 < k → c ≤ 2 ^ 63 - 1 →
      run (fun fuel => qpois_right_searchT (fin u) (fin rate) fuel v c) = ub) := by
  have hm := fun m h => qpois_right_searchT_mono (fin u) (fin rate) v c m h
  constructor
  · intro h
    obtain ⟨w, d, e, h1, h2, h3, h4⟩ := qpois_searchT_stops (fin u) (fin rate) (k - c).toNat v c hc (by omega) hv
      (fun j hj => hlt _ (by omega) (by omega)) (by rwa [show c + ((k - c).toNat : ℤ) = k by omega])
    rw [show c + ((k - c).toNat : ℤ) = k by omega, ofInt_eq] at e
    exact ⟨w, d, run_eq hm e (by simp), by omega, by omega, by omega, by omega⟩
  · intro h hc'
    exact run_eq hm (qpois_searchT_ub (by simp [pois_ok, hr]) (by simp) (2 ^ 63 - 1 - c).toNat v c hc (by omega) hv
      (fun j hj => hlt _ (by omega) (by omega))) (by simp)

omit [Ideal] in
theorem qpoisT_unfold {rate u : ℝ} (hr : Lib.eps ≤ rate) (h0 : 0 < u) (h1 : u < 1) :
    qpoisT (fin u) (fin rate) = call (if rate < 11 then run fun fuel => qpois_right_searchT (fin u) (fin rate) fuel 0 0
      else (llCast (Fl.max 0 (qnorm (fin u) (fin rate) (sqrt (fin rate)) - 3))).andThen fun c =>
        (ppoisT c (fin rate) false).andThen fun v => run fun fuel => qpois_right_searchT (fin u) (fin rate) fuel v c) := by
  have hr0 : 0 < rate := lt_of_lt_of_le Lib.eps_pos hr
  have a : pois_ok (fin rate) := by simp [pois_ok, hr0.le]
  have b : prob_val_ok (fin u) := by simp [prob_val_ok, h0.le, h1.le]
  rw [qpoisT, if_neg (not_not.2 a), if_neg (not_not.2 b), if_neg (by simp [h0.ne']), if_neg (by simp [eps, hr]),
    if_neg (by simp [h1.ne])]
  congr 1

/-- In exact arithmetic the call of `qpois` is defined exactly when the value it should return is at most
`2^63 - 2`. -/
theorem C56_qpois {rate u : ℝ} (hr : 0 ≤ rate) (h0 : 0 ≤ u) (h1 : u < 1) {k : ℕ}
    (hk : qpois (fin u) (fin rate) = some (fin k)) :
    (k ≤ 2 ^ 63 - 2 → Defined (qpoisT (fin u) (fin rate)) (fin k)) ∧
      (2 ^ 63 - 2 < k → qpoisT (fin u) (fin rate) = ub) := by
  have a : pois_ok (fin rate) := by simp [pois_ok, hr]
  have b : prob_val_ok (fin u) := by simp [prob_val_ok, h0, h1.le]
  have triv : qpois (fin u) (fin rate) = some 0 → qpoisT (fin u) (fin rate) = ret 0 1 1 →
      (k ≤ 2 ^ 63 - 2 → Defined (qpoisT (fin u) (fin rate)) (fin k)) ∧
      (2 ^ 63 - 2 < k → qpoisT (fin u) (fin rate) = ub) := by
    intro e1 e2
    rw [e1, zero_eq, Option.some.injEq, fin.injEq] at hk
    have : k = 0 := by exact_mod_cast hk.symm
    subst this
    exact ⟨fun _ => ⟨1, 1, by rw [e2, zero_eq]; simp⟩, fun h => absurd h (by norm_num)⟩
  rcases h0.eq_or_lt with rfl | hu
  · apply triv
    · rw [qpois, if_neg (not_not.2 a), if_neg (not_not.2 b)]; simp
    · rw [qpoisT, if_neg (not_not.2 a), if_neg (not_not.2 b), if_pos (by simp)]; rfl
  rcases lt_or_ge rate Lib.eps with h | h
  · apply triv
    · rw [qpois, if_neg (not_not.2 a), if_neg (not_not.2 b)]; simp [hu.ne', eps, h]
    · rw [qpoisT, if_neg (not_not.2 a), if_neg (not_not.2 b), if_neg (by simp [hu.ne']), if_pos (by simp [eps, h])]; rfl
  obtain ⟨k', hk', k0, hab, hbe⟩ := C19_qpois_above_partial h hu h1
  rw [hk', Option.some.injEq, fin.injEq] at hk
  obtain rfl : k' = (k : ℤ) := by exact_mod_cast hk
  have hr0 : 0 < rate := lt_of_lt_of_le Lib.eps_pos h
  have hpp := ppois_fin (rate := rate) hr
  have hnk : ¬ ppois k (fin rate) false ≤ fin u := by
    simp only [hpp, fin_lt_fin, fin_le_fin, not_le] at hab ⊢; exact hab
  have hlt : ∀ j : ℤ, 0 ≤ j → j < k → ppois j (fin rate) false ≤ fin u := fun j hj hjk => hbe j hj hjk
  rw [qpoisT_unfold h hu h1]
  split_ifs with h11
  · obtain ⟨s1, s2⟩ := qpois_search_run hr (v := 0) (c := 0) le_rfl (by omega) (by simp [h0]) hlt hnk
    constructor
    · intro hh
      obtain ⟨w, d, e, -⟩ := s1 (by omega)
      exact ⟨w + 1, d + 1, by rw [e]; simp⟩
    · intro hh
      rw [s2 (by omega) (by norm_num)]; rfl
  · obtain ⟨r, hr1, e1, e2⟩ := qpois_start_fin hr0 hu h1
    obtain ⟨hc0, hcc⟩ := qpois_start hr0 hu h1
    rw [e1, llCast_fin hr1]
    rw [e2] at hc0 hcc
    set c := ⌊r⌋ with hcdef
    by_cases hle : ppois c (fin rate) false ≤ fin u
    · have hck : c ≤ k := by
        by_contra hcon
        refine hnk ?_
        rw [hpp, fin_le_fin] at hle ⊢
        exact (cumZ_mono (poisPmf_nonneg hr) (by omega)).trans hle
      obtain ⟨s1, s2⟩ := qpois_search_run hr hc0 hck hle hlt hnk
      constructor
      · intro hh
        obtain ⟨w, d, e, -⟩ := s1 (by omega)
        obtain ⟨w', -, e'⟩ := ppoisT_eq (x := c) (by omega) (fin rate) false
        rw [if_pos (by omega), done_andThen, e']
        simp only [andThen, e, call_ret]
        exact ⟨_, _, rfl⟩
      · intro hh
        by_cases hb : c ≤ 2 ^ 63 - 1
        · rw [if_pos hb, done_andThen]
          by_cases hb' : c = 2 ^ 63 - 1
          · rw [hb', ppoisT_ub a (by simp)]; rfl
          · obtain ⟨w', -, e'⟩ := ppoisT_eq (x := c) (by omega) (fin rate) false
            rw [e']
            simp only [andThen, s2 (by omega) hb, call_ub]
        · rw [if_neg hb]; rfl
    · have hc : c = 0 := by
        rcases hcc with h | h
        · exact h
        · rw [hpp, fin_le_fin] at hle; exact absurd h hle
      have hk0 : k = 0 := by
        by_contra hne
        rw [hc] at hle
        exact hle (hlt 0 le_rfl (by omega))
      subst hk0
      refine ⟨fun _ => ?_, fun hh => absurd hh (by norm_num)⟩
      rw [hc] at hle ⊢
      obtain ⟨w', -, e'⟩ := ppoisT_eq (x := 0) (by norm_num) (fin rate) false
      have e3 : run (fun fuel => qpois_right_searchT (fin u) (fin rate) fuel (ppois 0 (fin rate) false) 0) = ret 0 1 1 := by
        refine run_eq (fun m h => qpois_right_searchT_mono (fin u) (fin rate) _ 0 m h) (n := 1) ?_ (by simp)
        rw [qpois_right_searchT, if_neg hle, if_neg (by norm_num)]; rfl
      rw [if_pos (by norm_num), done_andThen, e']
      simp only [andThen, e3, call_ret]
      exact ⟨_, _, by rw [zero_eq, Nat.cast_zero]⟩

/-- For a rate of at least `2^63 + 3` the median cannot be computed: the starting point does not fit. -/
theorem C56_qpois_violated {rate : ℝ} (hr : 2 ^ 63 + 3 ≤ rate) : qpoisT (fin (1 / 2)) (fin rate) = ub := by
  have hr0 : 0 < rate := by linarith [show (0 : ℝ) < 2 ^ 63 by positivity]
  have hs : 0 < √rate := Real.sqrt_pos.2 hr0
  have hq : qnorm (fin (1 / 2)) (fin rate) (fin √rate) = fin rate := by
    have := qnorm_inv rate hs rate
    have c : Phi 0 = 1 / 2 := by simp [Phi]
    simp only [sub_self, zero_div, c] at this
    exact this (by norm_num) (by norm_num)
  have he : Lib.eps ≤ rate := by
    have := Lib.eps_le
    norm_num at hr ⊢; linarith
  rw [qpoisT_unfold he (by norm_num) (by norm_num), if_neg (by norm_num at hr ⊢; linarith), isqrt hr0.le, hq]
  have e : Fl.max 0 (fin rate - 3) = fin (rate - 3) := by
    simp only [ofNat_eq, zero_eq, ideal, Fl.max, fin_lt_fin]
    rw [if_pos (by norm_num at hr ⊢; linarith)]
  rw [e, llCast_fin (by norm_num at hr ⊢; linarith), if_neg]
  · rfl
  · rw [not_le]
    have : (2 ^ 63 : ℤ) ≤ ⌊rate - 3⌋ := Int.le_floor.2 (by push_cast; linarith)
    omega

/-- Up to a rate of `2^62` every probability up to `1 - 2^(-61)` is safe. -/
theorem C56_qpois_partial {rate u : ℝ} (hr : 0 ≤ rate) (hr' : rate ≤ 2 ^ 62) (h0 : 0 ≤ u) (h1 : u ≤ 1 - 1 / 2 ^ 61) :
    ∃ k : ℕ, qpois (fin u) (fin rate) = some (fin k) ∧ Defined (qpoisT (fin u) (fin rate)) (fin k) := by
  have hu1 : u < 1 := by
    have : (0 : ℝ) < 1 / 2 ^ 61 := by positivity
    linarith
  obtain ⟨k, hk⟩ := C20_qpois hr h0 hu1
  refine ⟨k, hk, (C56_qpois hr h0 hu1 hk).1 ?_⟩
  rcases h0.eq_or_lt with rfl | hu
  · have : qpois (fin 0) (fin rate) = some 0 := by
      rw [qpois, if_neg (by simp [pois_ok, hr]), if_neg (by simp [prob_val_ok])]; simp
    rw [this, zero_eq, Option.some.injEq, fin.injEq] at hk
    have : k = 0 := by exact_mod_cast hk.symm
    omega
  rcases lt_or_ge rate Lib.eps with h | h
  · have : qpois (fin u) (fin rate) = some 0 := by
      rw [qpois, if_neg (by simp [pois_ok, hr]), if_neg (by simp [prob_val_ok, hu.le, hu1.le])]; simp [hu.ne', eps, h]
    rw [this, zero_eq, Option.some.injEq, fin.injEq] at hk
    have : k = 0 := by exact_mod_cast hk.symm
    omega
  obtain ⟨k', hk', k0, hab, hbe⟩ := C19_qpois_above_partial h hu hu1
  rw [hk', Option.some.injEq, fin.injEq] at hk
  obtain rfl : k' = (k : ℤ) := by exact_mod_cast hk
  by_contra hcon
  have hc := hbe (2 ^ 63 - 2) (by simp) (by omega)
  have hpp := ppois_fin (rate := rate) hr (2 ^ 63 - 2)
  simp only [hpp, fin_le_fin] at hc
  have ht := (massMom_pois hr).tail (fun k hk => poisPmf_neg hk) (2 ^ 63 - 2) (by push_cast; norm_num at hr' ⊢; linarith)
  rw [show (((2 : ℤ) ^ 63 - 2 : ℤ) : ℝ) = 2 ^ 63 - 2 by push_cast; ring] at ht
  have h2 : rate / ((2 : ℝ) ^ 63 - 2 + 1 - rate) ^ 2 ≤ 2 ^ 62 / (2 ^ 62 - 1) ^ 2 := by
    apply div_le_div₀ (by positivity) hr' (by norm_num)
    apply pow_le_pow_left₀ (by norm_num)
    norm_num at hr' ⊢; linarith
  have h3 : (2 : ℝ) ^ 62 / (2 ^ 62 - 1) ^ 2 < 1 / 2 ^ 61 := by norm_num
  have h4 := (ht.trans h2).trans_lt h3
  generalize cumZ (poisPmf rate) (2 ^ 63 - 2) = F at hc h4
  generalize (1 : ℝ) / 2 ^ 61 = q at h1 h4
  linarith

/-- `qbinom` with the greatest number of trials and sure success: the counter overflows. -/
theorem C56_qbinom_violated {u : ℝ} (h0 : 0 < u) (h1 : u < 1) : qbinomT (fin u) (2 ^ 63 - 1) (fin 1) = ub := by
  have hL : InLL (2 ^ 63 - 1) := ⟨by norm_num, le_rfl⟩
  have hok : binom_ok (2 ^ 63 - 1) (fin 1) := by simp [binom_ok]
  have hp : prob_val_ok (fin u) := by simp [prob_val_ok, h0.le, h1.le]
  have hF : ∀ j : ℤ, 0 ≤ j → j < 2 ^ 63 - 1 → pbinom j (2 ^ 63 - 1) (fin 1) false < fin u := by
    intro j hj hj'
    have e := pbinom_fin (n := 2 ^ 63 - 1) (p := 1) (by norm_num) le_rfl j
    have hz : cumZ (binomPmf (2 ^ 63 - 1) 1) j = 0 := by
      refine Finset.sum_eq_zero fun i hi => ?_
      have := Finset.mem_range.1 hi
      rw [binomPmf]
      split_ifs
      · rw [sub_self, zero_pow (by simp only [Int.toNat_natCast]; omega), mul_zero]
      · rfl
    rw [hz] at e
    rw [show ((2 : ℤ) ^ 63 - 1) = ((2 ^ 63 - 1 : ℕ) : ℤ) by norm_num, e, fin_lt_fin]
    exact h0
  have key : ∀ (d : ℕ) (v : Fl) (c : ℤ), 0 ≤ c → c + d = 2 ^ 63 - 1 → v < fin u →
      qbinom_recurT (fin u) (2 ^ 63 - 1) (fin 1) (d + 1) v c = ub := by
    intro d
    induction d with
    | zero =>
      intro v c hc hd hv
      rw [qbinom_recurT, if_pos hv, pbinomT_eq hL, llOp_not (fun h => by have := h.2; push_cast at hd; omega)]
      rfl
    | succ d ih =>
      intro v c hc hd hv
      have := ih _ (c + 1) (by omega) (by push_cast at hd; omega) (hF c hc (by push_cast at hd; omega))
      rw [qbinom_recurT, if_pos hv, pbinomT_eq hL, llOp_of ⟨by omega, by push_cast at hd; omega⟩]
      simp only [done_andThen]
      simp only [andThen, this, call_ub]
  rw [qbinomT, if_neg (not_not.2 hok), if_neg (not_not.2 hp), if_neg (by simp [h0.ne']), if_neg (by simp [h1.ne]),
    run_eq (fun m h => qbinom_recurT_mono _ _ _ 0 0 m h) (key (2 ^ 63 - 1) 0 0 le_rfl (by norm_num) (by simp [h0])) (by simp)]
  rfl

/-- For rates below 11 `qpois` evaluates the distribution function at every count from 0 to its value. -/
theorem C57_qpois {rate u : ℝ} (hr : Lib.eps ≤ rate) (hr' : rate < 11) (h0 : 0 < u) (h1 : u < 1) {k : ℕ}
    (hk : qpois (fin u) (fin rate) = some (fin k)) (hk' : k ≤ 2 ^ 63 - 2) :
    ∃ w d, qpoisT (fin u) (fin rate) = ret (fin k) w d ∧ k + 3 ≤ w ∧ w ≤ 18 * k + 20 ∧ k + 3 ≤ d ∧ d ≤ k + 19 := by
  have hr0 : 0 ≤ rate := Lib.eps_pos.le.trans hr
  have hpp := ppois_fin (rate := rate) hr0
  obtain ⟨j, hj, j0, hab, hbe⟩ := C19_qpois_above_partial hr h0 h1
  rw [hj, Option.some.injEq, fin.injEq] at hk
  obtain rfl : j = (k : ℤ) := by exact_mod_cast hk
  have hnk : ¬ ppois k (fin rate) false ≤ fin u := by
    simp only [hpp, fin_lt_fin, fin_le_fin, not_le] at hab ⊢; exact hab
  obtain ⟨w, d, e, w1, w2, d1, d2⟩ := (qpois_search_run hr0 (v := 0) (c := 0) le_rfl (by omega) (by simp [h0.le])
    (fun j hj hjk => hbe j hj hjk) hnk).1 (by omega)
  refine ⟨w + 1, d + 1, ?_, by omega, by omega, by omega, by omega⟩
  rw [qpoisT_unfold hr h0 h1, if_pos hr', e]
  simp

/-- From a rate of 11 on the search starts at the normal approximation `s`, which is never above the value. -/
theorem C57_qpois_large {rate u : ℝ} (hr : 11 ≤ rate) (h0 : 0 < u) (h1 : u < 1) {k : ℕ}
    (hk : qpois (fin u) (fin rate) = some (fin k)) (hk' : k ≤ 2 ^ 63 - 2) :
    ∃ s w d : ℕ, qpois_trunc_normal_approx (fin u) (fin rate) = s ∧ s ≤ k ∧
      qpoisT (fin u) (fin rate) = ret (fin k) w d ∧ w ≤ 18 * (k - s) + 37 ∧ d ≤ k - s + 19 := by
  have hr0 : 0 < rate := by linarith
  have he : Lib.eps ≤ rate := by have := Lib.eps_le; linarith
  have hpp := ppois_fin (rate := rate) hr0.le
  obtain ⟨j, hj, j0, hab, hbe⟩ := C19_qpois_above_partial he h0 h1
  rw [hj, Option.some.injEq, fin.injEq] at hk
  obtain rfl : j = (k : ℤ) := by exact_mod_cast hk
  have hnk : ¬ ppois k (fin rate) false ≤ fin u := by
    simp only [hpp, fin_lt_fin, fin_le_fin, not_le] at hab ⊢; exact hab
  obtain ⟨r, hr1, e1, e2⟩ := qpois_start_fin hr0 h0 h1
  obtain ⟨hc0, hcc⟩ := qpois_start hr0 h0 h1
  rw [qpoisT_unfold he h0 h1, if_neg (by linarith), e1, llCast_fin hr1, e2]
  rw [e2] at hc0 hcc
  obtain ⟨s, hs⟩ := Int.eq_ofNat_of_zero_le hc0
  rw [hs] at hcc ⊢
  by_cases hle : ppois s (fin rate) false ≤ fin u
  · have hck : (s : ℤ) ≤ k := by
      by_contra hcon
      refine hnk ?_
      rw [hpp, fin_le_fin] at hle ⊢
      exact (cumZ_mono (poisPmf_nonneg hr0.le) (by omega)).trans hle
    obtain ⟨w, d, e, -, w2, -, d2⟩ := (qpois_search_run hr0.le (by omega) hck hle (fun j hj hjk => hbe j hj hjk) hnk).1 (by omega)
    obtain ⟨w', hw', e'⟩ := ppoisT_eq (x := s) (by omega) (fin rate) false
    refine ⟨s, w' + w + 1, Max.max w' d + 1, rfl, by omega, ?_, by omega, by omega⟩
    rw [if_pos (by omega), done_andThen, e']
    simp only [andThen, e, call_ret]
    rfl
  · have hc : s = 0 := by
      rcases hcc with h | h
      · exact_mod_cast h
      · rw [hpp, fin_le_fin] at hle; exact absurd h hle
    subst hc
    have hk0 : k = 0 := by
      by_contra hne
      exact hle (hbe 0 (by simp) (by omega))
    subst hk0
    obtain ⟨w', hw', e'⟩ := ppoisT_eq (x := ((0 : ℕ) : ℤ)) (by norm_num) (fin rate) false
    have e3 : run (fun fuel => qpois_right_searchT (fin u) (fin rate) fuel (ppois ((0 : ℕ) : ℤ) (fin rate) false) ((0 : ℕ) : ℤ)) =
        ret 0 1 1 := by
      refine run_eq (fun m h => qpois_right_searchT_mono (fin u) (fin rate) _ _ m h) (n := 1) ?_ (by simp)
      rw [qpois_right_searchT, if_neg hle, if_neg (by norm_num)]; rfl
    refine ⟨0, w' + 1 + 1, Max.max w' 1 + 1, rfl, le_rfl, ?_, by omega, by omega⟩
    rw [if_pos (by norm_num), done_andThen, e']
    simp only [andThen, e3, call_ret]
    rw [zero_eq, Nat.cast_zero]

end ideal

end Stats

namespace Stats.ExamplesC56
open Fl Out Spec
open scoped Stats.Exact

example : Defined (dbinomT 3 7 (fin (1 / 4)) true) (dbinom 3 7 (fin (1 / 4)) true) :=
  C56_dbinom 3 (by norm_num [InLL]) _ _
example : Defined (pbinomT 3 7 (fin (1 / 4)) false) (pbinom 3 7 (fin (1 / 4)) false) :=
  C56_pbinom 3 (by norm_num [InLL]) _ _
example : ∃ v, qbinom (fin (1 / 3)) 7 (fin (1 / 4)) = some v ∧ Defined (qbinomT (fin (1 / 3)) 7 (fin (1 / 4))) v :=
  C56_qbinom_partial (by norm_num) (by norm_num) _ _
example : qbinomT (fin (1 / 3)) (2 ^ 63 - 1) (fin 1) = ub := C56_qbinom_violated (by norm_num) (by norm_num)
example : Defined (dpoisT 4 (fin 2) false) (dpois 4 (fin 2) false) := C56_dpois_partial (by norm_num) _ _
example : dpoisT (2 ^ 63 - 1) (fin 2) false = ub := C56_dpois_violated (by norm_num) _
example : Defined (ppoisT 4 (fin 2) true) (ppois 4 (fin 2) true) := C56_ppois_partial (by norm_num) _ _
example : ppoisT (2 ^ 63 - 1) (fin 2) false = ub := C56_ppois_violated (by norm_num) _
example : Defined (qinvgaussT (fin (1 / 3)) (fin 2) (fin 5)) (qinvgauss (fin (1 / 3)) (fin 2) (fin 5)) := C56_qinvgauss _ _ _
example : qpoisT (fin (1 / 3)) pinf = ub := C56_qpois_inf_violated (by norm_num) (by norm_num)
example : qpoisT (fin (1 / 2)) (fin (2 ^ 64)) = ub := C56_qpois_violated (by norm_num)
example : ∃ k : ℕ, qpois (fin (9 / 10)) (fin 40) = some (fin k) ∧ Defined (qpoisT (fin (9 / 10)) (fin 40)) (fin k) :=
  C56_qpois_partial (by norm_num) (by norm_num) (by norm_num) (by norm_num)
/-- a value below the bound -/
example : ∃ k : ℕ, qpois (fin (9 / 10)) (fin 40) = some (fin k) ∧
    (k ≤ 2 ^ 63 - 2 → Defined (qpoisT (fin (9 / 10)) (fin 40)) (fin k)) := by
  obtain ⟨k, hk⟩ := C20_qpois (rate := 40) (u := 9 / 10) (by norm_num) (by norm_num) (by norm_num)
  exact ⟨k, hk, (C56_qpois (by norm_num) (by norm_num) (by norm_num) hk).1⟩
/-- a value above it -/
example : ∃ k : ℕ, qpois (fin (1 / 2)) (fin (2 ^ 64)) = some (fin k) ∧ 2 ^ 63 - 2 < k := by
  obtain ⟨k, hk⟩ := C20_qpois (rate := 2 ^ 64) (u := 1 / 2) (by norm_num) (by norm_num) (by norm_num)
  refine ⟨k, hk, not_le.1 fun h => ?_⟩
  obtain ⟨w, d, e⟩ := (C56_qpois (by norm_num) (by norm_num) (by norm_num) hk).1 h
  rw [C56_qpois_violated (by norm_num)] at e
  cases e

/-- `pbinom(1000, 2000, 1/2)` needs more than 1000 nested calls; the usual limit for a constant expression is 512. -/
example : ∃ v, pbinomT 1000 2000 (fin (1 / 2)) false = ret v 2003 1003 :=
  C57_pbinom (by norm_num) (by norm_num) (by norm_num) (by norm_num [InLL]) (by norm_num) (by norm_num) _
example : ∃ k w d : ℕ, (k : ℤ) ≤ 9 ∧ qbinom (fin (1 / 3)) 9 (fin (1 / 4)) = some (ofInt k) ∧
    qbinomT (fin (1 / 3)) 9 (fin (1 / 4)) = ret (ofInt k) w d ∧ w ≤ (k + 1) * (2 * k + 4) + 2 ∧ d ≤ 2 * k + 5 ∧
      ((k : ℤ) < 9 → w = (k + 1) * (k + 4) + 2 ∧ d = 2 * k + 5) :=
  C57_qbinom (by norm_num) (by norm_num) (by norm_num) (by norm_num) (by norm_num) (by norm_num)
example : ∃ v w, ppoisT 12 (fin 3) false = ret v w w ∧ w ≤ 17 := C57_ppois (by norm_num) _ _
example : ∃ v w d, qinvgaussT (fin (1 / 3)) (fin 2) (fin 5) = ret v w d ∧ w ≤ 404 ∧ d ≤ 203 := C57_qinvgauss _ _ _
example : ∃ k w d : ℕ, qpois (fin (1 / 3)) (fin 2) = some (fin k) ∧ (k ≤ 2 ^ 63 - 2 →
    qpoisT (fin (1 / 3)) (fin 2) = ret (fin k) w d ∧ k + 3 ≤ w ∧ w ≤ 18 * k + 20 ∧ k + 3 ≤ d ∧ d ≤ k + 19) := by
  have he : (Lib.eps : ℝ) ≤ 2 := by have := Lib.eps_le; linarith
  obtain ⟨k, hk⟩ := C20_qpois (rate := 2) (u := 1 / 3) (by norm_num) (by norm_num) (by norm_num)
  by_cases h : k ≤ 2 ^ 63 - 2
  · obtain ⟨w, d, e⟩ := C57_qpois he (by norm_num) (by norm_num) (by norm_num) hk h
    exact ⟨k, w, d, hk, fun _ => e⟩
  · exact ⟨k, 0, 0, hk, fun hh => absurd hh h⟩

example : ∃ k : ℕ, qpois (fin (9 / 10)) (fin 40) = some (fin k) ∧ (k ≤ 2 ^ 63 - 2 → ∃ s w d : ℕ,
    qpois_trunc_normal_approx (fin (9 / 10)) (fin 40) = s ∧ s ≤ k ∧
      qpoisT (fin (9 / 10)) (fin 40) = ret (fin k) w d ∧ w ≤ 18 * (k - s) + 37 ∧ d ≤ k - s + 19) := by
  obtain ⟨k, hk⟩ := C20_qpois (rate := 40) (u := 9 / 10) (by norm_num) (by norm_num) (by norm_num)
  exact ⟨k, hk, fun h => C57_qpois_large (by norm_num) (by norm_num) (by norm_num) hk h⟩

end Stats.ExamplesC56

import Verif.Lemmas.Combine2
import Verif.Lemmas.CauchySum
import Verif.Props.C32
import Verif.Props.C50

/-!
# C60: generators against each other

Known relations between distributions, kept by the generators: a program that draws twice, or `n + 1` times, and adds,
multiplies, divides or compares the results gets numbers whose law is the law of another generator. Normal and
lognormal draws keep them exactly; the others up to a multiple of `δ = nextafter(0,1)` in the probability of any event.
-/

set_option linter.unusedSectionVars false
open Classical
open MeasureTheory Set
open scoped ENNReal

namespace Stats
open Fl Spec
variable [Lib] [Ideal] {S : Type*} [MeasurableSpace S] [Engine S] {P : Measure S}

/-! ### normal -/

theorem near_rnorm (hP : FairEngine P) (mu : ℝ) {sigma : ℝ} (h : 0 < sigma) :
    NearLaw P (fun s => some (rnorm (fin mu) (fin sigma) s)) (densLaw (normPdf mu sigma)) 0 :=
  have := (isCdf_norm mu h).isProb
  (C32_rnorm hP mu h).near

/-- the sum of two normal draws -/
theorem C60_rnorm_add (hP : FairEngine P) (m₁ m₂ : ℝ) {s₁ s₂ : ℝ} (h₁ : 0 < s₁) (h₂ : 0 < s₂) :
    HasLaw P (two (· + ·) (fun s => some (rnorm (fin m₁) (fin s₁) s)) (fun s => some (rnorm (fin m₂) (fin s₂) s)))
      (densLaw (normPdf (m₁ + m₂) √(s₁ ^ 2 + s₂ ^ 2))) := by
  have := hP.prob
  have := (isCdf_norm m₁ h₁).isProb
  have := (isCdf_norm m₂ h₂).isProb
  have := (isCdf_norm (m₁ + m₂) (sigma := √(s₁ ^ 2 + s₂ ^ 2)) (by positivity)).isProb
  have := near_two (near_rnorm hP m₁ h₁) (near_rnorm hP m₂ h₂) (op := fun x y => x + y) (by fun_prop) (norm_add m₁ m₂ h₁ h₂)
  rw [add_zero] at this
  exact this.exact

/-- the sum of `n + 1` normal draws -/
theorem C60_rnorm_total (hP : FairEngine P) (mu : ℝ) {sigma : ℝ} (h : 0 < sigma) (n : ℕ) :
    HasLaw P (total (fun s => some (rnorm (fin mu) (fin sigma) s)) n) (densLaw (normPdf ((n + 1) * mu) (√(n + 1) * sigma))) := by
  have := hP.prob
  have := (isCdf_norm mu h).isProb
  have hL := fun n : ℕ => (isCdf_norm ((n + 1) * mu) (sigma := √(n + 1) * sigma) (by positivity)).isProb
  have := near_total (near_rnorm hP mu h) hL (by simp) (fun n => ?_) n
  · rw [mul_zero] at this
    exact this.exact
  · rw [norm_add _ _ (by positivity) h]
    congr 2
    · push_cast; ring
    · rw [mul_pow, Real.sq_sqrt (by positivity), ← add_one_mul, Real.sqrt_mul (by positivity), Real.sqrt_sq h.le]
      push_cast; rfl

/-- the quotient of two centred normal draws is Cauchy -/
theorem C60_rnorm_div (hP : FairEngine P) {s₁ s₂ : ℝ} (h₁ : 0 < s₁) (h₂ : 0 < s₂) :
    HasLaw P (two (· / ·) (fun s => some (rnorm (fin 0) (fin s₁) s)) (fun s => some (rnorm (fin 0) (fin s₂) s)))
      (densLaw (cauchyPdf 0 (s₁ / s₂))) := by
  have := hP.prob
  have := (isCdf_norm 0 h₁).isProb
  have := (isCdf_norm 0 h₂).isProb
  have := (isCdf_cauchy 0 (div_pos h₁ h₂)).isProb
  have := near_two (near_rnorm hP 0 h₁) (near_rnorm hP 0 h₂) (op := fun x y => x / y) (by fun_prop) (norm_ratio h₁ h₂)
  rw [add_zero] at this
  exact this.exact

/-- the sum of the squares of `n + 1` standard normal draws is chi-squared -/
theorem C60_rnorm_sq (hP : FairEngine P) (n : ℕ) :
    HasLaw P (total (one (· ^ 2) fun s => some (rnorm (fin 0) (fin 1) s)) n) (densLaw (chisqPdf (n + 1))) := by
  have := hP.prob
  have := (isCdf_norm 0 one_pos).isProb
  have hL := fun n : ℕ => (isCdf_chisq (k := n + 1) (by positivity)).isProb
  have := (isCdf_chisq one_pos).isProb
  have := near_total (near_one (near_rnorm hP 0 one_pos) (f := fun x => x ^ 2) (by fun_prop) norm_sq) hL (by simp) (fun n => ?_) n
  · rw [mul_zero] at this
    exact this.exact
  · rw [chisq_add (by positivity) one_pos]
    push_cast; rfl

/-- the product of two lognormal draws -/
theorem C60_rlnorm_mul (hP : FairEngine P) (m₁ m₂ : ℝ) {s₁ s₂ : ℝ} (h₁ : 0 < s₁) (h₂ : 0 < s₂) :
    HasLaw P (two (· * ·) (fun s => some (rlnorm (fin m₁) (fin s₁) s)) (fun s => some (rlnorm (fin m₂) (fin s₂) s)))
      (densLaw (lnormPdf (m₁ + m₂) √(s₁ ^ 2 + s₂ ^ 2))) := by
  have := hP.prob
  have := (isCdf_lnorm m₁ h₁).isProb
  have := (isCdf_lnorm m₂ h₂).isProb
  have := (isCdf_lnorm (m₁ + m₂) (sigma := √(s₁ ^ 2 + s₂ ^ 2)) (by positivity)).isProb
  have := near_two (C32_rlnorm hP m₁ h₁).near (C32_rlnorm hP m₂ h₂).near (op := fun x y => x * y) (by fun_prop)
    (lnorm_mul m₁ m₂ h₁ h₂)
  rw [add_zero] at this
  exact this.exact

/-! ### gamma and chi-squared -/

theorem C60_rgamma_add (hP : FairEngine P) (hδ : Lib.next 0 1 ≤ 1 / 30) {a b θ : ℝ} (ha : 0 < a) (hb : 0 < b)
    (hθ : Lib.eps ≤ θ) :
    NearLaw P (two (· + ·) (rgamma (fin a) (fin θ)) (rgamma (fin b) (fin θ))) (densLaw (gammaPdf (a + b) θ))
      (14 * Lib.next 0 1) := by
  have := hP.prob
  have h := Lib.eps_pos.trans_le hθ
  have := (isCdf_gamma ha h).isProb
  have := (isCdf_gamma hb h).isProb
  have := near_two (C50_rgamma hP hδ ha hθ) (C50_rgamma hP hδ hb hθ) (op := fun x y => x + y) (by fun_prop) (gamma_add ha hb h)
  rwa [← add_mul, show (7 : ℝ) + 7 = 14 by norm_num] at this

theorem C60_rchisq_add (hP : FairEngine P) (hδ : Lib.next 0 1 ≤ 1 / 30) {a b : ℝ} (ha : 0 < a) (hb : 0 < b) :
    NearLaw P (two (· + ·) (rchisq (fin a)) (rchisq (fin b))) (densLaw (chisqPdf (a + b))) (14 * Lib.next 0 1) := by
  have := hP.prob
  have := (isCdf_chisq ha).isProb
  have := (isCdf_chisq hb).isProb
  have := near_two (C50_rchisq hP hδ ha) (C50_rchisq hP hδ hb) (op := fun x y => x + y) (by fun_prop) (chisq_add ha hb)
  rwa [← add_mul, show (7 : ℝ) + 7 = 14 by norm_num] at this

/-- one divided by an F draw -/
theorem C60_rf_inv (hP : FairEngine P) (hδ : Lib.next 0 1 ≤ 1 / 30) {d₁ d₂ : ℝ} (h₁ : Lib.eps ≤ d₁) (h₂ : Lib.eps ≤ d₂) :
    NearLaw P (one (1 / ·) (rf (fin d₁) (fin d₂))) (densLaw (fPdf d₂ d₁)) (14 * Lib.next 0 1) := by
  have := hP.prob
  have p₁ := Lib.eps_pos.trans_le h₁
  have p₂ := Lib.eps_pos.trans_le h₂
  have := (isCdf_f p₁ p₂).isProb
  exact near_one (C50_rf hP hδ h₁ h₂) (by fun_prop) (f_inv p₁ p₂)

/-- the square of a t draw -/
theorem C60_rt_sq (hP : FairEngine P) (hδ : Lib.next 0 1 ≤ 1 / 30) {ν : ℝ} (h : Lib.eps ≤ ν) :
    NearLaw P (one (· ^ 2) (rt (fin ν))) (densLaw (fPdf 1 ν)) (7 * Lib.next 0 1) := by
  have := hP.prob
  have p := Lib.eps_pos.trans_le h
  have := (isCdf_t p).isProb
  exact near_one (C50_rt hP hδ h) (by fun_prop) (t_sq p)

/-- one minus a beta draw -/
theorem C60_rbeta_compl (hP : FairEngine P) (hδ : Lib.next 0 1 ≤ 1 / 30) {a b : ℝ} (ha : 0 < a) (hb : 0 < b) :
    NearLaw P (one (1 - ·) (rbeta (fin a) (fin b))) (densLaw (betaPdf b a)) (14 * Lib.next 0 1) := by
  have := hP.prob
  have := (isCdf_beta ha hb).isProb
  exact near_one (C50_rbeta hP hδ ha hb) (by fun_prop) (beta_compl a b)

/-! ### exponential and Weibull -/

/-- the sum of `n + 1` exponential draws is gamma -/
theorem C60_rexp_total (hP : FairEngine P) (hδ : Lib.next 0 1 < 1) {rate : ℝ} (h : 0 < rate) (n : ℕ) :
    NearLaw P (total (fun s => some (rexp (fin rate) s)) n) (densLaw (gammaPdf (n + 1) (1 / rate))) ((n + 1) * Lib.next 0 1) := by
  have := hP.prob
  have := (isCdf_exp h).isProb
  have hL := fun n : ℕ => (isCdf_gamma (k := n + 1) (θ := 1 / rate) (by positivity) (by positivity)).isProb
  refine near_total (C50_rexp hP hδ h) hL (by rw [exp_gamma h]; simp) (fun n => ?_) n
  rw [exp_gamma h, gamma_add (by positivity) one_pos (by positivity)]
  push_cast; rfl

/-- the difference of two exponential draws is Laplace -/
theorem C60_rexp_sub (hP : FairEngine P) (hδ : Lib.next 0 1 < 1) {rate : ℝ} (h : 0 < rate) :
    NearLaw P (two (· - ·) (fun s => some (rexp (fin rate) s)) (fun s => some (rexp (fin rate) s)))
      (densLaw (laplacePdf 0 (1 / rate))) (2 * Lib.next 0 1) := by
  have := hP.prob
  have := (isCdf_exp h).isProb
  have := near_two (C50_rexp hP hδ h) (C50_rexp hP hδ h) (op := fun x y => x - y) (by fun_prop) (exp_sub h)
  rwa [← two_mul] at this

/-- the logarithm of the quotient of two exponential draws is logistic -/
theorem C60_rexp_logratio (hP : FairEngine P) (hδ : Lib.next 0 1 < 1) {rate : ℝ} (h : 0 < rate) :
    NearLaw P (two (fun x y => Real.log (x / y)) (fun s => some (rexp (fin rate) s)) (fun s => some (rexp (fin rate) s)))
      (densLaw (logisPdf 0 1)) (2 * Lib.next 0 1) := by
  have := hP.prob
  have := (isCdf_exp h).isProb
  have := near_two (C50_rexp hP hδ h) (C50_rexp hP hδ h) (op := fun x y => Real.log (x / y)) (by fun_prop) (exp_log_ratio h)
  rwa [← two_mul] at this

/-- the smaller of two exponential draws -/
theorem C60_rexp_min (hP : FairEngine P) (hδ : Lib.next 0 1 < 1) {a b : ℝ} (ha : 0 < a) (hb : 0 < b) :
    NearLaw P (two Min.min (fun s => some (rexp (fin a) s)) (fun s => some (rexp (fin b) s)))
      (densLaw (expPdf (a + b))) (2 * Lib.next 0 1) := by
  have := hP.prob
  have := (isCdf_exp ha).isProb
  have := (isCdf_exp hb).isProb
  have := near_two (C50_rexp hP hδ ha) (C50_rexp hP hδ hb) (op := Min.min) (by fun_prop) (exp_min ha hb)
  rwa [← two_mul] at this

/-- the smaller of two Weibull draws of one shape -/
theorem C60_rweibull_min (hP : FairEngine P) (hδ : Lib.next 0 1 < 1) {k a b : ℝ} (hk : Lib.eps ≤ k) (ha : Lib.eps ≤ a)
    (hb : Lib.eps ≤ b) :
    NearLaw P (two Min.min (fun s => some (rweibull (fin k) (fin a) s)) (fun s => some (rweibull (fin k) (fin b) s)))
      (densLaw (weibullPdf k (((1 / a) ^ k + (1 / b) ^ k) ^ (-(1 / k))))) (2 * Lib.next 0 1) := by
  have := hP.prob
  have pk := Lib.eps_pos.trans_le hk
  have pa := Lib.eps_pos.trans_le ha
  have pb := Lib.eps_pos.trans_le hb
  have := (isCdf_weibull pk pa).isProb
  have := (isCdf_weibull pk pb).isProb
  have := near_two (C50_rweibull hP hδ hk ha) (C50_rweibull hP hδ hk hb) (op := Min.min) (by fun_prop) (weibull_min pk pa pb)
  rwa [← two_mul] at this

/-- a power of a Weibull draw is exponential -/
theorem C60_rweibull_pow (hP : FairEngine P) (hδ : Lib.next 0 1 < 1) {k θ : ℝ} (hk : Lib.eps ≤ k) (hθ : Lib.eps ≤ θ) :
    NearLaw P (one (fun x => (x / θ) ^ k) fun s => some (rweibull (fin k) (fin θ) s)) (densLaw (expPdf 1)) (Lib.next 0 1) := by
  have := hP.prob
  have pk := Lib.eps_pos.trans_le hk
  have pθ := Lib.eps_pos.trans_le hθ
  have := (isCdf_weibull pk pθ).isProb
  exact near_one (C50_rweibull hP hδ hk hθ) (by fun_prop) (weibull_pow_law pk pθ)

/-! ### Cauchy -/

theorem C60_rcauchy_add (hP : FairEngine P) (hδ : Lib.next 0 1 < 1) (m₁ m₂ : ℝ) {s₁ s₂ : ℝ} (h₁ : 0 < s₁) (h₂ : 0 < s₂) :
    NearLaw P (two (· + ·) (fun s => some (rcauchy (fin m₁) (fin s₁) s)) (fun s => some (rcauchy (fin m₂) (fin s₂) s)))
      (densLaw (cauchyPdf (m₁ + m₂) (s₁ + s₂))) (2 * Lib.next 0 1) := by
  have := hP.prob
  have := (isCdf_cauchy m₁ h₁).isProb
  have := (isCdf_cauchy m₂ h₂).isProb
  have := near_two (C50_rcauchy hP hδ m₁ h₁) (C50_rcauchy hP hδ m₂ h₂) (op := fun x y => x + y) (by fun_prop) (cauchy_add m₁ m₂ h₁ h₂)
  rwa [← two_mul] at this

/-- The mean of `n + 1` Cauchy draws has the law of a single one: averaging does not help. -/
theorem C60_rcauchy_mean (hP : FairEngine P) (hδ : Lib.next 0 1 < 1) (mu : ℝ) {sigma : ℝ} (h : 0 < sigma) (n : ℕ) :
    NearLaw P (one (· / (n + 1)) (total (fun s => some (rcauchy (fin mu) (fin sigma) s)) n)) (densLaw (cauchyPdf mu sigma))
      ((n + 1) * Lib.next 0 1) := by
  have := hP.prob
  have := (isCdf_cauchy mu h).isProb
  have := (isCdf_cauchy 0 one_pos).isProb
  have hL := fun n : ℕ => (isCdf_cauchy ((n + 1) * mu) (sigma := (n + 1) * sigma) (by positivity)).isProb
  have h1 := near_total (C50_rcauchy hP hδ mu h) hL (by simp) (fun n => ?_) n
  · refine near_one h1 (by fun_prop) ?_
    rw [← cauchy_affine _ (by positivity), ← cauchy_affine mu h, Measure.map_map (by fun_prop) (by fun_prop)]
    congr 1
    funext z
    simp only [Function.comp_apply]
    field_simp
  · rw [cauchy_add _ _ (by positivity) h]
    congr 2 <;> push_cast <;> ring

/-! ### counts -/

theorem C60_rpois_add (hP : FairEngine P) (hδ : Lib.next 0 1 < 1) {a b : ℝ} (ha : Lib.eps ≤ a) (hb : Lib.eps ≤ b) :
    NearLaw P (two (· + ·) (rpois (fin a)) (rpois (fin b))) (massLaw (poisPmf (a + b))) (2 * Lib.next 0 1) := by
  have := hP.prob
  have pa := (Lib.eps_pos.trans_le ha).le
  have pb := (Lib.eps_pos.trans_le hb).le
  have := massLaw_pois_prob pa
  have := massLaw_pois_prob pb
  have := near_two (C50_rpois hP hδ ha) (C50_rpois hP hδ hb) (op := fun x y => x + y) (by fun_prop) (pois_add pa pb)
  rwa [← two_mul] at this

theorem rbern_val {p : ℝ} (h0 : 0 ≤ p) (h1 : p ≤ 1) (s : S) : ∃ k : ℝ, (rbern (fin p) s).1 = fin k := by
  rw [rbern, if_neg (by simp [bern_ok, h0, h1]), zero_eq, one_eq]
  simp only
  split_ifs
  exacts [⟨1, rfl⟩, ⟨0, rfl⟩]

theorem rbinom_loop_fin {p : ℝ} (h0 : 0 ≤ p) (h1 : p ≤ 1) (n : ℕ) (s : S) : ∃ (k : ℝ) (s' : S), ∀ m : ℝ,
    rbinom_loop (fin p) n (fin m) s = (fin (m + k), s') := by
  induction n generalizing s with
  | zero => exact ⟨0, s, fun m => by rw [rbinom_loop, add_zero]⟩
  | succ n ih =>
    obtain ⟨j, hj⟩ := rbern_val h0 h1 s
    obtain ⟨k, s', h⟩ := ih (rbern (fin p) s).2
    refine ⟨j + k, s', fun m => ?_⟩
    rw [rbinom_loop]
    simp only [hj, ideal]
    rw [h, add_assoc]

theorem rbinom_loop_append (p : Fl) (n m : ℕ) (r : Fl) (s : S) :
    rbinom_loop p (n + m) r s = rbinom_loop p m (rbinom_loop p n r s).1 (rbinom_loop p n r s).2 := by
  induction n generalizing r s with
  | zero => rw [zero_add, rbinom_loop]
  | succ n ih => rw [Nat.succ_add, rbinom_loop, rbinom_loop]; exact ih _ _

/-- Two binomial draws of one probability add to the draw with all trials, from every engine state. -/
theorem C60_rbinom_add {p : ℝ} (h0 : 0 ≤ p) (h1 : p ≤ 1) (n m : ℕ) (s : S) :
    two (· + ·) (fun s => some (rbinom n (fin p) s)) (fun s => some (rbinom m (fin p) s)) s = some (rbinom (n + m) (fin p) s) := by
  have ok : ∀ n : ℕ, binom_ok n (fin p) := fun n => by simp [binom_ok, h0, h1]
  have e : ∀ (n : ℕ) (s : S), rbinom n (fin p) s = rbinom_loop (fin p) n (fin 0) s := fun n s => by
    rw [rbinom, if_neg (not_not.2 (ok n)), Int.toNat_natCast, zero_eq]
  obtain ⟨k, s', h⟩ := rbinom_loop_fin h0 h1 n s
  obtain ⟨j, s'', h'⟩ := rbinom_loop_fin h0 h1 m s'
  rw [← Nat.cast_add, e, rbinom_loop_append, two]
  simp only [e, one, h, h', zero_add]

/-- A binomial draw is the sum of its Bernoulli draws. -/
theorem C60_rbern_total {p : ℝ} (h0 : 0 ≤ p) (h1 : p ≤ 1) (n : ℕ) (s : S) :
    total (fun s => some (rbern (fin p) s)) n s = some (rbinom (n + 1) (fin p) s) := by
  have e : ∀ s : S, some (rbern (fin p) s) = some (rbinom ((1 : ℕ) : ℤ) (fin p) s) := fun s => by
    obtain ⟨j, hj⟩ := rbern_val h0 h1 s
    rw [rbinom, if_neg (by simp [binom_ok, h0, h1]), Int.toNat_natCast, zero_eq, rbinom_loop, rbinom_loop, hj]
    simp only [ideal, zero_add]
    rw [← hj]
  induction n generalizing s with
  | zero => rw [total, e]; simp
  | succ n ih =>
    have : total (fun s : S => some (rbern (fin p) s)) n = fun s => some (rbinom ((n + 1 : ℕ) : ℤ) (fin p) s) := funext fun s => by
      rw [ih, Nat.cast_succ]
    rw [total, this, show (fun s : S => some (rbern (fin p) s)) = fun s => some (rbinom ((1 : ℕ) : ℤ) (fin p) s) from funext e,
      C60_rbinom_add h0 h1]
    push_cast; rfl

/-- A Rademacher draw is twice a Bernoulli draw less one, from every engine state. -/
theorem C60_rradem {p : ℝ} (h0 : 0 ≤ p) (h1 : p ≤ 1) (s : S) :
    one (2 * · - 1) (fun s => some (rbern (fin p) s)) s = some (rradem (fin p) s) := by
  rw [one, rbern, if_neg (by simp [bern_ok, h0, h1]), rradem, if_neg (by simp [radem_ok, h0, h1]), zero_eq, one_eq]
  simp only
  split_ifs with h
  · norm_num
  · norm_num

end Stats

namespace Stats.ExamplesC60
open Fl Spec MeasureTheory
open scoped Stats.Low

example : HasLaw Tape.tapeLaw (two (· + ·) (fun s => some (rnorm (fin 1) (fin 3) s)) (fun s => some (rnorm (fin (-2)) (fin 4) s)))
    (densLaw (normPdf (1 + -2) √(3 ^ 2 + 4 ^ 2))) := C60_rnorm_add Tape.fair 1 (-2) (by norm_num) (by norm_num)
example : HasLaw Tape.tapeLaw (total (fun s => some (rnorm (fin 3) (fin 2) s)) 9)
    (densLaw (normPdf (((9 : ℕ) + 1) * 3) (√((9 : ℕ) + 1) * 2))) := C60_rnorm_total Tape.fair 3 (by norm_num) 9
example : HasLaw Tape.tapeLaw (two (· / ·) (fun s => some (rnorm (fin 0) (fin 1) s)) (fun s => some (rnorm (fin 0) (fin 2) s)))
    (densLaw (cauchyPdf 0 (1 / 2))) := C60_rnorm_div Tape.fair (by norm_num) (by norm_num)
example : HasLaw Tape.tapeLaw (total (one (· ^ 2) fun s => some (rnorm (fin 0) (fin 1) s)) 4) (densLaw (chisqPdf ((4 : ℕ) + 1))) :=
  C60_rnorm_sq Tape.fair 4
example : HasLaw Tape.tapeLaw (two (· * ·) (fun s => some (rlnorm (fin 1) (fin 3) s)) (fun s => some (rlnorm (fin (-2)) (fin 4) s)))
    (densLaw (lnormPdf (1 + -2) √(3 ^ 2 + 4 ^ 2))) := C60_rlnorm_mul Tape.fair 1 (-2) (by norm_num) (by norm_num)
example : NearLaw Tape.tapeLaw (two (· + ·) (rgamma (fin 3) (fin 2)) (rgamma (fin (1 / 2)) (fin 2))) (densLaw (gammaPdf (3 + 1 / 2) 2))
    (14 * (1 / 2 ^ 1074)) :=
  Low.next ▸ C60_rgamma_add Tape.fair Low.next_le (by norm_num) (by norm_num) (Low.eps_le (by norm_num))
example : NearLaw Tape.tapeLaw (two (· + ·) (rchisq (fin 3)) (rchisq (fin 4))) (densLaw (chisqPdf (3 + 4))) (14 * (1 / 2 ^ 1074)) :=
  Low.next ▸ C60_rchisq_add Tape.fair Low.next_le (by norm_num) (by norm_num)
example : NearLaw Tape.tapeLaw (one (1 / ·) (rf (fin 3) (fin 4))) (densLaw (fPdf 4 3)) (14 * (1 / 2 ^ 1074)) :=
  Low.next ▸ C60_rf_inv Tape.fair Low.next_le (Low.eps_le (by norm_num)) (Low.eps_le (by norm_num))
example : NearLaw Tape.tapeLaw (one (· ^ 2) (rt (fin 5))) (densLaw (fPdf 1 5)) (7 * (1 / 2 ^ 1074)) :=
  Low.next ▸ C60_rt_sq Tape.fair Low.next_le (Low.eps_le (by norm_num))
example : NearLaw Tape.tapeLaw (one (1 - ·) (rbeta (fin 3) (fin 4))) (densLaw (betaPdf 4 3)) (14 * (1 / 2 ^ 1074)) :=
  Low.next ▸ C60_rbeta_compl Tape.fair Low.next_le (by norm_num) (by norm_num)
example : NearLaw Tape.tapeLaw (total (fun s => some (rexp (fin 3) s)) 4) (densLaw (gammaPdf ((4 : ℕ) + 1) (1 / 3)))
    (((4 : ℕ) + 1) * (1 / 2 ^ 1074)) := Low.next ▸ C60_rexp_total Tape.fair Low.next_lt (by norm_num) 4
example : NearLaw Tape.tapeLaw (two (· - ·) (fun s => some (rexp (fin 3) s)) (fun s => some (rexp (fin 3) s)))
    (densLaw (laplacePdf 0 (1 / 3))) (2 * (1 / 2 ^ 1074)) := Low.next ▸ C60_rexp_sub Tape.fair Low.next_lt (by norm_num)
example : NearLaw Tape.tapeLaw (two (fun x y => Real.log (x / y)) (fun s => some (rexp (fin 3) s)) (fun s => some (rexp (fin 3) s)))
    (densLaw (logisPdf 0 1)) (2 * (1 / 2 ^ 1074)) := Low.next ▸ C60_rexp_logratio Tape.fair Low.next_lt (by norm_num)
example : NearLaw Tape.tapeLaw (two Min.min (fun s => some (rexp (fin 3) s)) (fun s => some (rexp (fin 4) s)))
    (densLaw (expPdf (3 + 4))) (2 * (1 / 2 ^ 1074)) := Low.next ▸ C60_rexp_min Tape.fair Low.next_lt (by norm_num) (by norm_num)
example : NearLaw Tape.tapeLaw (two Min.min (fun s => some (rweibull (fin 2) (fin 3) s)) (fun s => some (rweibull (fin 2) (fin 4) s)))
    (densLaw (weibullPdf 2 (((1 / 3) ^ (2 : ℝ) + (1 / 4) ^ (2 : ℝ)) ^ (-(1 / 2) : ℝ)))) (2 * (1 / 2 ^ 1074)) :=
  Low.next ▸ C60_rweibull_min Tape.fair Low.next_lt (Low.eps_le (by norm_num)) (Low.eps_le (by norm_num)) (Low.eps_le (by norm_num))
example : NearLaw Tape.tapeLaw (one (fun x => (x / 3) ^ (2 : ℝ)) fun s => some (rweibull (fin 2) (fin 3) s)) (densLaw (expPdf 1))
    (1 / 2 ^ 1074) :=
  Low.next ▸ C60_rweibull_pow Tape.fair Low.next_lt (Low.eps_le (by norm_num)) (Low.eps_le (by norm_num))
example : NearLaw Tape.tapeLaw (two (· + ·) (fun s => some (rcauchy (fin 1) (fin 3) s)) (fun s => some (rcauchy (fin 2) (fin 4) s)))
    (densLaw (cauchyPdf (1 + 2) (3 + 4))) (2 * (1 / 2 ^ 1074)) :=
  Low.next ▸ C60_rcauchy_add Tape.fair Low.next_lt 1 2 (by norm_num) (by norm_num)
example : NearLaw Tape.tapeLaw (one (· / ((99 : ℕ) + 1)) (total (fun s => some (rcauchy (fin 1) (fin 3) s)) 99))
    (densLaw (cauchyPdf 1 3)) (((99 : ℕ) + 1) * (1 / 2 ^ 1074)) :=
  Low.next ▸ C60_rcauchy_mean Tape.fair Low.next_lt 1 (by norm_num) 99
example : NearLaw Tape.tapeLaw (two (· + ·) (rpois (fin 3)) (rpois (fin 4))) (massLaw (poisPmf (3 + 4))) (2 * (1 / 2 ^ 1074)) :=
  Low.next ▸ C60_rpois_add Tape.fair Low.next_lt (Low.eps_le (by norm_num)) (Low.eps_le (by norm_num))
example (s : Tape) : two (· + ·) (fun s => some (rbinom (3 : ℕ) (fin (1 / 3)) s)) (fun s => some (rbinom (4 : ℕ) (fin (1 / 3)) s)) s =
    some (rbinom ((3 : ℕ) + (4 : ℕ)) (fin (1 / 3)) s) := C60_rbinom_add (by norm_num) (by norm_num) 3 4 s
example (s : Tape) : total (fun s => some (rbern (fin (1 / 3)) s)) 6 s = some (rbinom ((6 : ℕ) + 1) (fin (1 / 3)) s) :=
  C60_rbern_total (by norm_num) (by norm_num) 6 s
example (s : Tape) : one (2 * · - 1) (fun s => some (rbern (fin (1 / 3)) s)) s = some (rradem (fin (1 / 3)) s) :=
  C60_rradem (by norm_num) (by norm_num) s

end Stats.ExamplesC60

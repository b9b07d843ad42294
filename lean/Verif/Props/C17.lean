import Verif.Props.C08D
import Verif.Lemmas.RealDisc
import Verif.Spec.Cdf
import Verif.Lemmas.ExactInst
import Verif.Lemmas.Meets

/-!
# C17: discrete probabilities sum to one, the distribution function is their running sum

Exact arithmetic; every number of trials, every success probability in `[0,1]`, every finite rate, every integer.
-/

set_option linter.unusedSectionVars false
open Classical Finset
namespace Stats
open Fl Spec
variable [Lib] [Ideal]

theorem sumsToOne_of {d : ℤ → Bool → Fl} {f : ℤ → ℝ} (h : ∀ k, IsValue (d k) (f k)) (hs : HasSum f 1) :
    SumsToOne d := by
  refine ⟨fun k => ⟨f k, (h k).1, (h k).2.1⟩, ?_⟩
  have : (fun k : ℤ => toR (d k false)) = f := by funext k; rw [(h k).2.1]; rfl
  rw [this]; exact hs

theorem runningSum_of {d p : ℤ → Bool → Fl} {f F : ℤ → ℝ} (h : ∀ k, IsValue (d k) (f k))
    (hp : ∀ k, p k false = fin (F k))
    (hs : ∀ k, HasSum (fun j : ℤ => if j ≤ k then f j else 0) (F k)) : RunningSum d p := by
  intro k
  refine ⟨F k, hp k, ?_⟩
  have : (fun j : ℤ => if j ≤ k then toR (d j false) else 0) = fun j : ℤ => if j ≤ k then f j else 0 := by
    funext j; rw [(h j).2.1]; rfl
  rw [this]; exact hs k

/-! ### Bernoulli -/

/-- distribution function of the Bernoulli distribution -/
noncomputable def bernCdf (p : ℝ) (k : ℤ) : ℝ := if k < 0 then 0 else if 1 ≤ k then 1 else 1 - p

theorem hasSum_two {f : ℤ → ℝ} {a b : ℤ} (hab : a ≠ b) (h : ∀ k, k ≠ a → k ≠ b → f k = 0) :
    HasSum f (f a + f b) := by
  rw [← Finset.sum_pair hab]
  apply hasSum_sum_of_ne_finset_zero
  intro k hk; simp at hk; exact h k hk.1 hk.2

theorem hasSum_two_cum {f : ℤ → ℝ} {a b : ℤ} (hab : a ≠ b) (h : ∀ k, k ≠ a → k ≠ b → f k = 0) (k : ℤ) :
    HasSum (fun j : ℤ => if j ≤ k then f j else 0) ((if a ≤ k then f a else 0) + (if b ≤ k then f b else 0)) := by
  refine hasSum_two (f := fun j : ℤ => if j ≤ k then f j else 0) hab ?_
  intro j h1 h2; simp [h j h1 h2]

theorem pbern_fin {p : ℝ} (h0 : 0 ≤ p) (h1 : p ≤ 1) (k : ℤ) :
    pbern k (fin p) false = fin (bernCdf p k) := by
  have e0 : ¬ p < 0 := by linarith
  have e1 : ¬ 1 < p := by linarith
  simp only [pbern, bern_ok, pbern_compute, bernCdf, ideal]
  by_cases h2 : k < 0
  · simp [e0, e1, h2]
  · by_cases h3 : 1 ≤ k
    · simp [e0, e1, h2, h3]
    · simp [e0, e1, h2, h3, ideal]

theorem C17_dbern {p : ℝ} (h0 : 0 ≤ p) (h1 : p ≤ 1) : SumsToOne fun k => dbern k (fin p) := by
  refine sumsToOne_of (fun k => C08_dbern h0 h1 k) ?_
  have := hasSum_two (f := bernPmf p) (a := 0) (b := 1) (by norm_num) (by
    intro k hk0 hk1; simp [bernPmf, hk0, hk1])
  simpa [bernPmf] using this
example : SumsToOne fun k => dbern k (fin (1 / 3)) := C17_dbern (p := 1 / 3) (h0 := by meets) (h1 := by meets)

theorem C17_pbern {p : ℝ} (h0 : 0 ≤ p) (h1 : p ≤ 1) :
    RunningSum (fun k => dbern k (fin p)) (fun k => pbern k (fin p)) := by
  refine runningSum_of (fun k => C08_dbern h0 h1 k) (pbern_fin h0 h1) ?_
  intro k
  have := hasSum_two_cum (f := bernPmf p) (a := 0) (b := 1) (by norm_num) (by
    intro k hk0 hk1; simp [bernPmf, hk0, hk1]) k
  have e : bernCdf p k = (if 0 ≤ k then bernPmf p (0) else 0) + (if 1 ≤ k then bernPmf p 1 else 0) := by
    rw [bernCdf]
    split_ifs <;> first | omega | simp [bernPmf]
  rw [e]; exact this
example : RunningSum (fun k => dbern k (fin (1 / 3))) (fun k => pbern k (fin (1 / 3))) :=
  C17_pbern (p := 1 / 3) (h0 := by meets) (h1 := by meets)

/-! ### Rademacher -/

/-- distribution function of the Rademacher distribution -/
noncomputable def rademCdf (p : ℝ) (k : ℤ) : ℝ := if k < -1 then 0 else if 1 ≤ k then 1 else 1 - p

theorem pradem_fin {p : ℝ} (h0 : 0 ≤ p) (h1 : p ≤ 1) (k : ℤ) :
    pradem k (fin p) false = fin (rademCdf p k) := by
  have e0 : ¬ p < 0 := by linarith
  have e1 : ¬ 1 < p := by linarith
  simp only [pradem, radem_ok, pradem_compute, rademCdf, ideal]
  by_cases h2 : k < -1
  · simp [e0, e1, h2]
  · by_cases h3 : 1 ≤ k
    · simp [e0, e1, h2, h3]
    · simp [e0, e1, h2, h3, ideal]

theorem C17_dradem {p : ℝ} (h0 : 0 ≤ p) (h1 : p ≤ 1) : SumsToOne fun k => dradem k (fin p) := by
  refine sumsToOne_of (fun k => C08_dradem h0 h1 k) ?_
  have := hasSum_two (f := rademPmf p) (a := -1) (b := 1) (by norm_num) (by
    intro k hk0 hk1; simp [rademPmf, hk0, hk1])
  simpa [rademPmf] using this
example : SumsToOne fun k => dradem k (fin (1 / 3)) := C17_dradem (p := 1 / 3) (h0 := by meets) (h1 := by meets)

theorem C17_pradem {p : ℝ} (h0 : 0 ≤ p) (h1 : p ≤ 1) :
    RunningSum (fun k => dradem k (fin p)) (fun k => pradem k (fin p)) := by
  refine runningSum_of (fun k => C08_dradem h0 h1 k) (pradem_fin h0 h1) ?_
  intro k
  have := hasSum_two_cum (f := rademPmf p) (a := -1) (b := 1) (by norm_num) (by
    intro k hk0 hk1; simp [rademPmf, hk0, hk1]) k
  have e : rademCdf p k = (if -1 ≤ k then rademPmf p (-1) else 0) + (if 1 ≤ k then rademPmf p 1 else 0) := by
    rw [rademCdf]
    split_ifs <;> first | omega | simp [rademPmf]
  rw [e]; exact this
example : RunningSum (fun k => dradem k (fin (1 / 3))) (fun k => pradem k (fin (1 / 3))) :=
  C17_pradem (p := 1 / 3) (h0 := by meets) (h1 := by meets)

/-! ### Binomial -/

theorem pbinom_compute_fin (n : ℕ) {p : ℝ} (h0 : 0 ≤ p) (h1 : p ≤ 1) (steps : ℕ) (count : ℤ) :
    pbinom_compute n (fin p) steps count = fin (∑ i ∈ range (steps + 1), binomPmf n p (count + i)) := by
  induction steps generalizing count with
  | zero => simp [pbinom_compute, (C08_dbinom n h0 h1 count).2.1]
  | succ s ih =>
    rw [pbinom_compute, (C08_dbinom n h0 h1 count).2.1, ih, ifin_add, Finset.sum_range_succ' _ (s + 1)]
    congr 1
    rw [add_comm]
    congr 1
    · apply Finset.sum_congr rfl; intro i _; congr 1; push_cast; ring
    · simp

theorem pbinom_fin (n : ℕ) {p : ℝ} (h0 : 0 ≤ p) (h1 : p ≤ 1) (k : ℤ) :
    pbinom k n (fin p) false = fin (cumZ (binomPmf n p) k) := by
  have e0 : ¬ p < 0 := by linarith
  have e1 : ¬ 1 < p := by linarith
  have hok : binom_ok n (fin p) := by simp [binom_ok, e0, e1]
  rw [pbinom, if_neg (by simpa using hok)]
  by_cases h2 : k < 0
  · rw [if_pos h2, cumZ_neg h2]; simp
  rw [if_neg h2]
  by_cases h3 : k ≥ n
  · rw [if_pos h3, cumZ_binom h3]; simp
  rw [if_neg h3]
  obtain ⟨m, rfl⟩ := Int.eq_ofNat_of_zero_le (not_lt.1 h2)
  split_ifs with h4
  · have hn : n = 1 := by exact_mod_cast h4
    subst hn
    have hm : m = 0 := by simp at h3; omega
    subst hm
    rw [pbern_fin h0 h1]
    congr 1
    simp [bernCdf, cumZ, binomPmf]
  · rw [log_if_false, pbinom_compute_fin n h0 h1, cumZ_nat]
    simp

theorem C17_dbinom (n : ℕ) {p : ℝ} (h0 : 0 ≤ p) (h1 : p ≤ 1) : SumsToOne fun k => dbinom k n (fin p) :=
  sumsToOne_of (fun k => C08_dbinom n h0 h1 k) (hasSum_binom n p)
example : SumsToOne fun k => dbinom k 5 (fin (1 / 3)) :=
  C17_dbinom (n := 5) (p := 1 / 3) (h0 := by meets) (h1 := by meets)

theorem C17_pbinom (n : ℕ) {p : ℝ} (h0 : 0 ≤ p) (h1 : p ≤ 1) :
    RunningSum (fun k => dbinom k n (fin p)) (fun k => pbinom k n (fin p)) :=
  runningSum_of (fun k => C08_dbinom n h0 h1 k) (pbinom_fin n h0 h1)
    (hasSum_cumZ fun _ hk => binomPmf_neg hk)
example : RunningSum (fun k => dbinom k 5 (fin (1 / 3))) (fun k => pbinom k 5 (fin (1 / 3))) :=
  C17_pbinom (n := 5) (p := 1 / 3) (h0 := by meets) (h1 := by meets)

/-! ### Poisson -/

theorem ppois_tail_fin (rate : ℝ) (steps r : ℕ) :
    ppois_compute_recur_tail (fin rate) steps r =
      fin (∑ i ∈ range (steps + 1), rate ^ (r + i) / ((r + i).factorial : ℝ)) := by
  have hf : ∀ r : ℕ, (((r.factorial : ℕ) : ℤ) : ℝ) ≠ 0 := fun r => by
    have := Nat.factorial_pos r
    positivity
  induction steps generalizing r with
  | zero =>
    rw [ppois_compute_recur_tail, ipowi, ofInt_eq, ifin_div _ (hf r)]
    simp
  | succ s ih =>
    rw [ppois_compute_recur_tail, ih, ipowi, ofInt_eq, ifin_div _ (hf r), ifin_add,
      Finset.sum_range_succ' _ (s + 1)]
    congr 1
    rw [add_comm]
    congr 1
    apply Finset.sum_congr rfl; intro i _
    rw [show r + 1 + i = r + (i + 1) by ring]

theorem ppois_recur_fin (rate : ℝ) (m : ℕ) :
    ppois_compute_recur m (fin rate) = fin (∑ i ∈ range (m + 1), rate ^ i / (i.factorial : ℝ)) := by
  rw [ppois_compute_recur]
  split_ifs with h1 h2
  · have : m = 0 := by exact_mod_cast h1
    subst this; simp
  · have : m = 1 := by exact_mod_cast h2
    subst this; simp [ideal, Finset.sum_range_succ]
  · have hm : m ≠ 0 := fun h => h1 (by simp [h])
    obtain ⟨k, rfl⟩ := Nat.exists_eq_succ_of_ne_zero hm
    have e : ((k.succ : ℤ) - 1).toNat = k := by simp
    rw [e, ppois_tail_fin, one_eq, ifin_add, Finset.sum_range_succ' _ (k + 1)]
    congr 1
    rw [add_comm]
    simp [add_comm]

theorem ppois_fin {rate : ℝ} (h : 0 ≤ rate) (k : ℤ) :
    ppois k (fin rate) false = fin (cumZ (poisPmf rate) k) := by
  have e0 : ¬ rate < 0 := by linarith
  have hok : pois_ok (fin rate) := by simp [pois_ok, e0]
  rw [ppois, if_neg (by simpa using hok)]
  by_cases h2 : k < 0
  · rw [if_pos h2, cumZ_neg h2]; simp
  rw [if_neg h2, if_neg (by simp)]
  obtain ⟨m, rfl⟩ := Int.eq_ofNat_of_zero_le (not_lt.1 h2)
  rw [log_if_false, ppois_compute]
  split_ifs with h3
  · have hp : (0 : ℝ) < (m : ℝ) + 1 := by positivity
    rw [cumZ_pois h, ofInt_eq]
    push_cast
    rw [iigamma hp h, one_eq, ifin_sub]
  · rw [ppois_recur_fin, neg_fin, iexp, ifin_mul, cumZ_nat, Finset.mul_sum]
    congr 1
    apply Finset.sum_congr rfl; intro i _
    rw [poisPmf_nat]; ring

theorem C17_dpois {rate : ℝ} (h : 0 ≤ rate) : SumsToOne fun k => dpois k (fin rate) :=
  sumsToOne_of (fun k => C08_dpois h k) (hasSum_pois rate)
example : SumsToOne fun k => dpois k (fin 2) := C17_dpois (rate := 2) (h := by meets)

theorem C17_ppois {rate : ℝ} (h : 0 ≤ rate) :
    RunningSum (fun k => dpois k (fin rate)) (fun k => ppois k (fin rate)) :=
  runningSum_of (fun k => C08_dpois h k) (ppois_fin h) (hasSum_cumZ fun _ hk => poisPmf_neg hk)
example : RunningSum (fun k => dpois k (fin 2)) (fun k => ppois k (fin 2)) := C17_ppois (rate := 2) (h := by meets)

end Stats

namespace Stats.ExamplesC17
open Fl Spec
open scoped Stats.Exact

/-- 20 trials, probability 1/3: a sum of 8 terms -/
example : RunningSum (fun k => dbinom k 20 (fin (1 / 3))) (fun k => pbinom k 20 (fin (1 / 3))) :=
  C17_pbinom 20 (by norm_num) (by norm_num)
/-- rate 12: the code uses the incomplete gamma function -/
example : RunningSum (fun k => dpois k (fin 12)) (fun k => ppois k (fin 12)) := C17_ppois (by norm_num)

end Stats.ExamplesC17

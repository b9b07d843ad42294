import Verif.Props.C17
import Verif.Lemmas.Fuel
import Verif.Lemmas.PoisNorm
import Verif.Lemmas.QuantIdeal
import Verif.Lemmas.Range
import Verif.Spec.Quant
import Verif.Lemmas.Meets

/-!
# C18, C19, C20: discrete quantiles

`qbern`, `qradem`, `qbinom` return the smallest support point whose distribution function reaches the
probability (C18), the searches terminate (C20), and what `qpois` returns (C19).
-/

set_option linter.unusedSectionVars false
open Classical Finset
namespace Stats
open Fl Spec

section every
variable [Lib]

/-! ### C20: `qbinom` terminates, for every rounding rule -/

theorem pbinom_ge {n : ℤ} {prob : Fl} (hok : binom_ok n prob) {k : ℤ} (hk : n ≤ k) (h0 : 0 ≤ k) :
    pbinom k n prob false = 1 := by
  rw [pbinom, if_neg (not_not.2 hok), if_neg (by omega), if_pos hk, log_if_false]

theorem qbinom_first {n : ℤ} {prob p : Fl} (hok : binom_ok n prob) (hp : prob_val_ok p) (h0 : ¬ p ==. 0) (h1 : ¬ p ==. 1) :
    ∃ k : ℤ, 0 ≤ k ∧ k ≤ n ∧ qbinom p n prob = some (ofInt k) ∧
      (∃ fuel : ℕ, (fuel : ℤ) ≤ n + 2 ∧ qbinom_recur p n prob fuel 0 0 = some (ofInt k)) ∧
      (∀ j : ℤ, 0 ≤ j → j < k → pbinom j n prob false < p) ∧ ¬ pbinom k n prob false < p := by
  have hn : 0 ≤ n := ((binom_ok_iff n prob).1 hok).1
  have hpos : (0 : Fl) < p := by
    obtain ⟨a, b, c⟩ := hp
    cases p <;> simp_all
    exact lt_of_le_of_ne b (Ne.symm h0)
  have hle : ¬ (1 : Fl) < p := hp.2.2
  have hex : ∃ d : ℕ, ¬ pbinom (0 + (d : ℤ)) n prob false < p := by
    refine ⟨n.toNat, ?_⟩
    rw [pbinom_ge hok (by omega) (by omega)]; exact hle
  have hspec := Nat.find_spec hex
  have hmin : ∀ j : ℕ, j < Nat.find hex → pbinom (0 + (j : ℤ)) n prob false < p := fun j hj =>
    not_not.1 (Nat.find_min hex hj)
  have hfn : Nat.find hex ≤ n.toNat := by
    apply Nat.find_min' hex
    rw [pbinom_ge hok (by omega) (by omega)]; exact hle
  have hrun := qbinom_recur_stops p n prob (Nat.find hex) 0 0 hpos hmin hspec
  rw [zero_add] at hrun hspec
  refine ⟨Nat.find hex, by omega, by omega, ?_, ⟨Nat.find hex + 2, by push_cast; omega, hrun⟩, ?_, hspec⟩
  · rw [qbinom, if_neg (not_not.2 hok), if_neg (not_not.2 hp), if_neg h0, if_neg h1]
    exact runFuel_eq (qbinom_recur_mono p n prob 0 0) hrun
  · intro j hj hjk
    obtain ⟨m, rfl⟩ := Int.eq_ofNat_of_zero_le hj
    have := hmin m (by omega)
    rwa [zero_add] at this

/-- Whatever the rounding, the recursion of `qbinom` returns within `n + 2` calls, and what it returns is the
first number of successes in `0, ..., n` whose computed distribution function is not below the probability. -/
theorem C20_qbinom {n : ℤ} (hn : 0 ≤ n) {π u : ℝ} (hπ0 : 0 ≤ π) (hπ1 : π ≤ 1) (h0 : 0 < u) (h1 : u < 1) :
    ∃ k : ℤ, 0 ≤ k ∧ k ≤ n ∧ qbinom (fin u) n (fin π) = some (ofInt k) ∧
      (∃ fuel : ℕ, (fuel : ℤ) ≤ n + 2 ∧ qbinom_recur (fin u) n (fin π) fuel 0 0 = some (ofInt k)) ∧
      (∀ j : ℤ, 0 ≤ j → j < k → pbinom j n (fin π) false < fin u) ∧ ¬ pbinom k n (fin π) false < fin u :=
  qbinom_first (by simp [binom_ok, hn, hπ0, hπ1]) (by simp [prob_val_ok, h0.le, h1.le]) (by simp [h0.ne']) (by simp [h1.ne])

/-- An infinite rate is accepted, and then the search never returns, wherever it starts. -/
theorem C20_qpois_inf_violated {u : ℝ} (h0 : 0 ≤ u) (h1 : u ≤ 1) (count : ℤ) :
    pois_ok pinf ∧ qpois_compute_search_begin (fin u) pinf count = none := by
  have hok : pois_ok pinf := by simp [pois_ok]
  have h : ∀ k : ℤ, ppois k pinf false ≤ fin u := by
    intro k
    have e : ppois k pinf false = 0 := by
      rw [ppois, if_neg (not_not.2 hok)]; simp [log_zero_if]
    rw [e, zero_eq, fin_le_fin]; exact h0
  exact ⟨hok, runFuel_eq_none fun n => qpois_search_none _ pinf n _ count (h _) fun j => h _⟩

/-- and so `qpois(p, +inf)` never returns. -/
theorem C20_qpois_inf_call_violated {u : ℝ} (h0 : 0 < u) (h1 : u < 1) : qpois (fin u) pinf = none := by
  have hp : prob_val_ok (fin u) := by simp [prob_val_ok, h0.le, h1.le]
  have h := C20_qpois_inf_violated h0.le h1.le (qpois_trunc_normal_approx (fin u) pinf)
  rw [qpois, if_neg (not_not.2 h.1), if_neg (not_not.2 hp)]
  simp [h0.ne', h1.ne, eps, h.2]
example : qpois (fin (1 / 3)) pinf = none :=
  C20_qpois_inf_call_violated (u := 1 / 3) (h0 := by meets) (h1 := by meets)

end every

variable [Lib] [Ideal]

/-! ### C18 -/

theorem C18_qbern {u prob : ℝ} (hu0 : 0 ≤ u) (hu1 : u ≤ 1) (h0 : 0 ≤ prob) (h1 : prob ≤ 1) :
    ∃ k : ℤ, qbern (fin u) (fin prob) = fin k ∧ IsSmallest (fun k => pbern k (fin prob)) {0, 1} (fin u) k := by
  have e : qbern (fin u) (fin prob) = if u > 1 - prob then fin 1 else fin 0 := by
    have a : bern_ok (fin prob) := by simp [bern_ok, h0, h1]
    have b : prob_val_ok (fin u) := by simp [prob_val_ok, hu0, hu1]
    rw [qbern, if_neg (not_not.2 a), if_neg (not_not.2 b)]
    simp [ideal]
  rw [e]
  by_cases h : 1 - prob < u
  · refine ⟨1, by simp [h], by simp, ?_, ?_⟩
    · simp only [pbern_fin h0 h1, fin_le_fin]; simp [bernCdf, hu1]
    · intro j hj hj1
      have : j = 0 := by simp at hj; omega
      subst this
      simp only [pbern_fin h0 h1, fin_lt_fin]; simpa [bernCdf] using h
  · refine ⟨0, by simp [h], by simp, ?_, ?_⟩
    · simp only [pbern_fin h0 h1, fin_le_fin]; simpa [bernCdf] using h
    · intro j hj hj1
      simp at hj; omega
example : ∃ k : ℤ, qbern (fin (1 / 3)) (fin (1 / 3)) = fin k ∧ IsSmallest (fun k => pbern k (fin (1 / 3))) {0, 1} (fin (1 / 3)) k :=
  C18_qbern (u := 1 / 3) (prob := 1 / 3) (hu0 := by meets) (hu1 := by meets) (h0 := by meets) (h1 := by meets)

theorem C18_qradem {u prob : ℝ} (hu0 : 0 ≤ u) (hu1 : u ≤ 1) (h0 : 0 ≤ prob) (h1 : prob ≤ 1) :
    ∃ k : ℤ, qradem (fin u) (fin prob) = fin k ∧ IsSmallest (fun k => pradem k (fin prob)) {-1, 1} (fin u) k := by
  have e : qradem (fin u) (fin prob) = if u > 1 - prob then fin 1 else fin (-1) := by
    have a : radem_ok (fin prob) := by simp [radem_ok, h0, h1]
    have b : prob_val_ok (fin u) := by simp [prob_val_ok, hu0, hu1]
    rw [qradem, if_neg (not_not.2 a), if_neg (not_not.2 b)]
    simp [ideal]
  rw [e]
  by_cases h : 1 - prob < u
  · refine ⟨1, by simp [h], by simp, ?_, ?_⟩
    · simp only [pradem_fin h0 h1, fin_le_fin]; simp [rademCdf, hu1]
    · intro j hj hj1
      have : j = -1 := by simp at hj; omega
      subst this
      simp only [pradem_fin h0 h1, fin_lt_fin]; simpa [rademCdf] using h
  · refine ⟨-1, by simp [h], by simp, ?_, ?_⟩
    · simp only [pradem_fin h0 h1, fin_le_fin]; simpa [rademCdf] using h
    · intro j hj hj1
      simp at hj; omega
example : ∃ k : ℤ, qradem (fin (1 / 3)) (fin (1 / 3)) = fin k ∧ IsSmallest (fun k => pradem k (fin (1 / 3))) {-1, 1} (fin (1 / 3)) k :=
  C18_qradem (u := 1 / 3) (prob := 1 / 3) (hu0 := by meets) (hu1 := by meets) (h0 := by meets) (h1 := by meets)

/-- Every probability but 1. -/
theorem C18_qbinom_partial {u prob : ℝ} (n : ℕ) (hu0 : 0 ≤ u) (hu1 : u < 1) (h0 : 0 ≤ prob) (h1 : prob ≤ 1) :
    ∃ k : ℤ, qbinom (fin u) n (fin prob) = some (fin k) ∧
      IsSmallest (fun k => pbinom k n (fin prob)) (Set.Icc 0 n) (fin u) k := by
  have a : binom_ok n (fin prob) := by simp [binom_ok, h0, h1]
  have b : prob_val_ok (fin u) := by simp [prob_val_ok, hu0, hu1.le]
  rcases hu0.eq_or_lt with rfl | hpos
  · refine ⟨0, ?_, by simp, ?_, ?_⟩
    · rw [qbinom, if_neg (not_not.2 a), if_neg (not_not.2 b), if_pos (by simp)]; simp
    · simp only [pbinom_fin n h0 h1, fin_le_fin]
      exact cumZ_nonneg (binomPmf_nonneg h0 h1) 0
    · intro j hj hj0; exact absurd hj.1 (by omega)
  · obtain ⟨k, hk0, hkn, hq, -, hlt, hge⟩ := C20_qbinom (n := n) (by omega) h0 h1 hpos hu1
    refine ⟨k, ?_, ⟨hk0, hkn⟩, ?_, fun j hj hjk => hlt j hj.1 hjk⟩
    · rw [hq, ofInt_eq]
    · simp only [pbinom_fin n h0 h1, fin_le_fin, fin_lt_fin, not_lt] at hge ⊢; exact hge
example : ∃ k : ℤ, qbinom (fin (1 / 3)) 5 (fin (1 / 3)) = some (fin k) ∧
      IsSmallest (fun k => pbinom k 5 (fin (1 / 3))) (Set.Icc 0 5) (fin (1 / 3)) k :=
  C18_qbinom_partial (u := 1 / 3) (prob := 1 / 3) (n := 5) (hu0 := by meets) (hu1 := by meets) (h0 := by meets) (h1 := by meets)

/-- Probability 1, success probability above 0. -/
theorem C18_qbinom_one_partial {prob : ℝ} (n : ℕ) (h0 : 0 < prob) (h1 : prob ≤ 1) :
    qbinom (fin 1) n (fin prob) = some (fin n) ∧
      IsSmallest (fun k => pbinom k n (fin prob)) (Set.Icc 0 n) (fin 1) n := by
  have a : binom_ok n (fin prob) := by simp [binom_ok, h0.le, h1]
  have b : prob_val_ok (fin 1) := by simp [prob_val_ok]
  refine ⟨?_, by simp, ?_, ?_⟩
  · rw [qbinom, if_neg (not_not.2 a), if_neg (not_not.2 b)]; simp [ideal]
  · simp only [pbinom_fin n h0.le h1, fin_le_fin]
    rw [cumZ_binom le_rfl]
  · intro j hj hjn
    simp only [pbinom_fin n h0.le h1, fin_lt_fin]
    obtain ⟨m, rfl⟩ := Int.eq_ofNat_of_zero_le hj.1
    have hmn : m < n := by omega
    have htot : cumZ (binomPmf n prob) n = 1 := cumZ_binom le_rfl
    rw [cumZ_nat] at htot ⊢
    have hsub : range (m + 1) ⊆ range n := by
      intro i hi; simp at hi ⊢; omega
    have hle := Finset.sum_le_sum_of_subset_of_nonneg (f := fun i : ℕ => binomPmf n prob i) hsub
      fun i _ _ => binomPmf_nonneg h0.le h1 _
    rw [Finset.sum_range_succ] at htot
    have hlast : 0 < binomPmf n prob n := by
      simp [binomPmf]; positivity
    linarith
example : qbinom (fin 1) 5 (fin (1 / 3)) = some (fin 5) ∧
      IsSmallest (fun k => pbinom k 5 (fin (1 / 3))) (Set.Icc 0 5) (fin 1) 5 :=
  C18_qbinom_one_partial (prob := 1 / 3) (n := 5) (h0 := by meets) (h1 := by meets)

/-- With success probability 0 all mass is at 0, but `qbinom(1, n, 0)` is `n`. -/
theorem C18_qbinom_violated {n : ℕ} (hn : 0 < n) : qbinom (fin 1) n (fin 0) = some (fin n) ∧
    IsSmallest (fun k => pbinom k n (fin 0)) (Set.Icc 0 n) (fin 1) 0 := by
  have a : binom_ok n (fin 0) := by simp [binom_ok]
  have b : prob_val_ok (fin 1) := by simp [prob_val_ok]
  refine ⟨?_, by simp, ?_, ?_⟩
  · rw [qbinom, if_neg (not_not.2 a), if_neg (not_not.2 b)]; simp [ideal]
  · simp only [pbinom_fin n le_rfl zero_le_one, fin_le_fin]
    simp [cumZ, binomPmf]
  · intro j hj hjn
    exact absurd hj.1 (by omega)
example : qbinom (fin 1) 5 (fin 0) = some (fin 5) ∧
    IsSmallest (fun k => pbinom k 5 (fin 0)) (Set.Icc 0 5) (fin 1) 0 :=
  C18_qbinom_violated (n := 5) (hn := by meets)

/-! ### C19, C20: `qpois` -/

theorem tendsto_cumZ_pois {rate : ℝ} : Filter.Tendsto (fun k : ℕ => cumZ (poisPmf rate) k) Filter.atTop (nhds 1) := by
  have h := hasSum_pois rate
  have h2 : HasSum (fun n : ℕ => poisPmf rate n) 1 :=
    (Function.Injective.hasSum_iff (g := fun n : ℕ => (n : ℤ)) Nat.cast_injective (by
      intro k hk
      apply poisPmf_neg
      by_contra hc
      exact hk ⟨k.toNat, by simp; omega⟩)).2 h
  have h3 := (h2.tendsto_sum_nat).comp (Filter.tendsto_add_atTop_nat 1)
  refine h3.congr fun k => ?_
  rw [cumZ_nat]; rfl

/-- Where the search starts, the distribution function is at most the probability, unless it starts at 0. -/
theorem qpois_start {rate u : ℝ} (hr : 0 < rate) (h0 : 0 < u) (h1 : u < 1) :
    0 ≤ qpois_trunc_normal_approx (fin u) (fin rate) ∧ (qpois_trunc_normal_approx (fin u) (fin rate) = 0 ∨
      cumZ (poisPmf rate) (qpois_trunc_normal_approx (fin u) (fin rate)) ≤ u) := by
  have hs : 0 < √rate := Real.sqrt_pos.2 hr
  obtain ⟨z, hz⟩ : ∃ z, Phi z = u := by
    have hc : Continuous Phi := continuous_iff_continuousAt.2 fun z => (hasDerivAt_Phi z).continuousAt
    obtain ⟨a, ha⟩ := (tendsto_Phi_atBot.eventually_lt_const h0).exists
    obtain ⟨b, hb⟩ := (tendsto_Phi_atTop.eventually_const_lt h1).exists
    have hab : a ≤ b := by
      by_contra hc; have := strictMono_Phi (not_le.1 hc); linarith
    obtain ⟨z, -, hz⟩ := intermediate_value_Icc hab hc.continuousOn ⟨ha.le, hb.le⟩
    exact ⟨z, hz⟩
  have hq : qnorm (fin u) (fin rate) (fin √rate) = fin (rate + √rate * z) := by
    have := qnorm_inv rate hs (rate + √rate * z)
    have e : (rate + √rate * z - rate) / √rate = z := by field_simp; ring
    simp only [e, hz] at this
    exact this h0 h1
  have hc : qpois_trunc_normal_approx (fin u) (fin rate) = ⌊Max.max 0 (rate + √rate * z - 3)⌋ := by
    rw [qpois_trunc_normal_approx, isqrt hr.le, hq]
    simp only [ofNat_eq, zero_eq, ideal, Fl.max, fin_lt_fin]
    split_ifs with h
    · rw [toR_fin, max_eq_right h.le]
    · rw [toR_fin, max_eq_left (not_lt.1 h)]
  rw [hc]
  refine ⟨Int.floor_nonneg.2 (le_max_left _ _), ?_⟩
  rcases le_total (rate + √rate * z - 3) 0 with h | h
  · left; rw [max_eq_left h]; simp
  · right
    rw [max_eq_right h]
    obtain ⟨m, hm⟩ := Int.eq_ofNat_of_zero_le (Int.floor_nonneg.2 h)
    rw [hm]
    have hfl : (m : ℝ) ≤ rate + √rate * z - 3 := by
      have := Int.floor_le (rate + √rate * z - 3)
      rw [hm] at this; exact_mod_cast this
    refine (cumZ_pois_le_Phi m hr).trans ?_
    rw [← hz]
    apply strictMono_Phi.monotone
    rw [div_le_iff₀ hs]
    linarith

/-- `qpois` returns, for every finite rate of at least epsilon and every probability strictly between 0 and 1,
and the value is the smallest count whose distribution function *exceeds* the probability. The start of the
search at the normal approximation minus 3 never overshoots. -/
theorem C19_qpois_above_partial {rate u : ℝ} (hr : Lib.eps ≤ rate) (h0 : 0 < u) (h1 : u < 1) :
    ∃ k : ℤ, qpois (fin u) (fin rate) = some (fin k) ∧
      IsSmallestAbove (fun k => ppois k (fin rate)) (Set.Ici 0) (fin u) k := by
  have hr0 : 0 < rate := lt_of_lt_of_le Lib.eps_pos hr
  have a : pois_ok (fin rate) := by simp [pois_ok, hr0.le]
  have b : prob_val_ok (fin u) := by simp [prob_val_ok, h0.le, h1.le]
  have hmono := cumZ_mono (poisPmf_nonneg hr0.le)
  have hpp := ppois_fin (rate := rate) hr0.le
  -- the search from a starting point that is not too large
  have key : ∀ (c : ℤ) (v : Fl), 0 ≤ c → (c = 0 ∨ cumZ (poisPmf rate) c ≤ u) → v ≤ fin u →
      ∃ k : ℤ, runFuel (fun fuel => qpois_compute_right_search (fin u) (fin rate) fuel v c) = some (fin k) ∧
        IsSmallestAbove (fun k => ppois k (fin rate)) (Set.Ici 0) (fin u) k := by
    intro c v hc hcc hv
    have hex : ∃ d : ℕ, ¬ ppois (c + (d : ℤ)) (fin rate) false ≤ fin u := by
      obtain ⟨d, hd⟩ := (tendsto_cumZ_pois (rate := rate).eventually_const_lt h1).exists
      refine ⟨d, ?_⟩
      rw [hpp, fin_le_fin, not_le]
      exact lt_of_lt_of_le hd (hmono (by omega))
    have hspec := Nat.find_spec hex
    have hmin : ∀ j : ℕ, j < Nat.find hex → ppois (c + (j : ℤ)) (fin rate) false ≤ fin u := fun j hj =>
      not_not.1 (Nat.find_min hex hj)
    have hrun := qpois_search_stops (fin u) (fin rate) (Nat.find hex) v c hc hv hmin hspec
    rw [ofInt_eq] at hrun
    refine ⟨c + Nat.find hex, runFuel_eq (qpois_search_mono _ _ _ _) hrun, by simp; omega, ?_, ?_⟩
    · simp only [hpp, fin_le_fin, fin_lt_fin, not_le] at hspec ⊢; exact hspec
    · intro j hj hjk
      simp only [Set.mem_Ici] at hj
      simp only [hpp, fin_le_fin]
      rcases lt_or_ge j c with hjc | hjc
      · rcases hcc with rfl | hcc
        · omega
        · exact (hmono hjc.le).trans hcc
      · have := hmin (j - c).toNat (by omega)
        rwa [show c + ((j - c).toNat : ℤ) = j by omega, hpp, fin_le_fin] at this
  have hunf : qpois (fin u) (fin rate) = if rate < 11 then
      runFuel (fun fuel => qpois_compute_right_search (fin u) (fin rate) fuel 0 0) else
      qpois_compute_search_begin (fin u) (fin rate) (qpois_trunc_normal_approx (fin u) (fin rate)) := by
    rw [qpois, if_neg (not_not.2 a), if_neg (not_not.2 b)]
    simp [h0.ne', h1.ne, eps, not_lt.2 hr]
  rw [hunf]
  split_ifs with h11
  · exact key 0 0 le_rfl (Or.inl rfl) (by simp [h0.le])
  · obtain ⟨hc0, hcc⟩ := qpois_start hr0 h0 h1
    set c := qpois_trunc_normal_approx (fin u) (fin rate)
    rw [qpois_compute_search_begin]
    by_cases hle : ppois c (fin rate) false ≤ fin u
    · exact key c _ hc0 hcc hle
    · -- the search stops at once; then it starts at 0
      have hc : c = 0 := by
        rcases hcc with h | h
        · exact h
        · rw [hpp, fin_le_fin] at hle; exact absurd h hle
      rw [hc] at hle ⊢
      refine ⟨0, ?_, by simp, ?_, ?_⟩
      · refine runFuel_eq (n := 1) (qpois_search_mono _ _ _ _) ?_
        rw [qpois_compute_right_search, if_neg hle]; simp
      · simp only [hpp, fin_le_fin, fin_lt_fin, not_le] at hle ⊢; exact hle
      · intro j hj hj0; simp only [Set.mem_Ici] at hj; omega
example : ∃ k : ℤ, qpois (fin (1 / 3)) (fin 2) = some (fin k) ∧
      IsSmallestAbove (fun k => ppois k (fin 2)) (Set.Ici 0) (fin (1 / 3)) k :=
  C19_qpois_above_partial (rate := 2) (u := 1 / 3) (hr := by meets) (h0 := by meets) (h1 := by meets)

/-- `qpois` is the generalised inverse at every probability that is not a value of the distribution function. -/
theorem C19_qpois_partial {rate u : ℝ} (hr : Lib.eps ≤ rate) (h0 : 0 < u) (h1 : u < 1)
    (hu : ∀ k : ℤ, 0 ≤ k → ppois k (fin rate) false ≠ fin u) :
    ∃ k : ℤ, qpois (fin u) (fin rate) = some (fin k) ∧
      IsSmallest (fun k => ppois k (fin rate)) (Set.Ici 0) (fin u) k := by
  obtain ⟨k, hk, hk0, ha, hb⟩ := C19_qpois_above_partial hr h0 h1
  have hr0 : 0 ≤ rate := Lib.eps_pos.le.trans hr
  refine ⟨k, hk, hk0, ?_, ?_⟩
  · simp only [ppois_fin hr0, fin_le_fin, fin_lt_fin] at ha ⊢; exact ha.le
  · intro j hj hjk
    have h1 := hb j hj hjk
    have h2 := hu j hj
    simp only [ppois_fin hr0, fin_le_fin, fin_lt_fin, ne_eq, fin.injEq] at h1 h2 ⊢
    exact lt_of_le_of_ne h1 h2

/-- At a value of the distribution function the answer is one too large, for every rate and every count. -/
theorem C19_qpois_violated {rate : ℝ} (hr : Lib.eps ≤ rate) (k : ℕ) :
    qpois (ppois k (fin rate) false) (fin rate) = some (fin (k + 1)) ∧
      IsSmallest (fun k => ppois k (fin rate)) (Set.Ici 0) (ppois k (fin rate) false) k := by
  have hr0 : 0 < rate := lt_of_lt_of_le Lib.eps_pos hr
  have hpp := ppois_fin (rate := rate) hr0.le
  have hpos : ∀ m : ℕ, 0 < poisPmf rate m := fun m => by rw [poisPmf_nat]; positivity
  have hstep : ∀ m : ℕ, cumZ (poisPmf rate) (m : ℤ) < cumZ (poisPmf rate) ((m + 1 : ℕ) : ℤ) := by
    intro m; rw [cumZ_nat, cumZ_nat, Finset.sum_range_succ _ (m + 1)]
    have := hpos (m + 1); linarith
  have hsm : StrictMono fun m : ℕ => cumZ (poisPmf rate) (m : ℤ) := strictMono_nat_of_lt_succ hstep
  have h0 : 0 < cumZ (poisPmf rate) (k : ℤ) := by
    have h := hsm.monotone (Nat.zero_le k)
    have : 0 < cumZ (poisPmf rate) ((0 : ℕ) : ℤ) := by rw [cumZ_nat]; simpa using hpos 0
    exact this.trans_le h
  have h1 : cumZ (poisPmf rate) (k : ℤ) < 1 :=
    (hstep k).trans_le (cumZ_le (poisPmf_nonneg hr0.le) (hasSum_pois rate) _)
  obtain ⟨m, hm, hm0, ha, hb⟩ := C19_qpois_above_partial hr h0 h1
  have hmk : m = k + 1 := by
    simp only [hpp, fin_lt_fin, fin_le_fin, Set.mem_Ici] at hm0 ha hb
    obtain ⟨m, rfl⟩ := Int.eq_ofNat_of_zero_le hm0
    have hkm : k < m := hsm.lt_iff_lt.1 ha
    by_contra hne
    have := hb ((k + 1 : ℕ) : ℤ) (by omega) (by omega)
    exact absurd this (not_le.2 (hstep k))
  refine ⟨?_, by simp, ?_, ?_⟩
  · rw [hpp, hm, hmk]; simp
  · simp only [hpp, fin_le_fin, le_refl]
  · intro j hj hjk
    obtain ⟨i, rfl⟩ := Int.eq_ofNat_of_zero_le hj
    simp only [hpp, fin_lt_fin]
    exact hsm (by omega)

/-- A rate below epsilon always gives 0, also where the distribution function at 0 is below the probability. -/
theorem C19_qpois_eps_violated {rate u : ℝ} (hr0 : 0 < rate) (hr : rate < Lib.eps) (h0 : Real.exp (-rate) < u)
    (h1 : u < 1) : qpois (fin u) (fin rate) = some (fin 0) ∧
      ¬ IsSmallest (fun k => ppois k (fin rate)) (Set.Ici 0) (fin u) 0 := by
  have hu : 0 < u := (Real.exp_pos _).trans h0
  have a : pois_ok (fin rate) := by simp [pois_ok, hr0.le]
  have b : prob_val_ok (fin u) := by simp [prob_val_ok, hu.le, h1.le]
  constructor
  · rw [qpois, if_neg (not_not.2 a), if_neg (not_not.2 b)]
    simp [hu.ne', eps, hr]
  · rintro ⟨-, h, -⟩
    simp only [ppois_fin hr0.le, fin_le_fin] at h
    simp [cumZ, poisPmf] at h
    linarith

/-- C20 for `qpois`: it returns a non-negative integer for every finite rate and every probability below 1. -/
theorem C20_qpois {rate u : ℝ} (hr : 0 ≤ rate) (h0 : 0 ≤ u) (h1 : u < 1) :
    ∃ k : ℕ, qpois (fin u) (fin rate) = some (fin k) := by
  have a : pois_ok (fin rate) := by simp [pois_ok, hr]
  have b : prob_val_ok (fin u) := by simp [prob_val_ok, h0, h1.le]
  rcases h0.eq_or_lt with rfl | hu
  · exact ⟨0, by rw [qpois, if_neg (not_not.2 a), if_neg (not_not.2 b)]; simp⟩
  · rcases lt_or_ge rate Lib.eps with h | h
    · refine ⟨0, ?_⟩
      rw [qpois, if_neg (not_not.2 a), if_neg (not_not.2 b)]; simp [hu.ne', eps, h]
    · obtain ⟨k, hk, hk0, -⟩ := C19_qpois_above_partial h hu h1
      simp only [Set.mem_Ici] at hk0
      obtain ⟨m, rfl⟩ := Int.eq_ofNat_of_zero_le hk0
      exact ⟨m, by rw [hk]; simp⟩
example : ∃ k : ℕ, qpois (fin (1 / 3)) (fin 2) = some (fin k) :=
  C20_qpois (rate := 2) (u := 1 / 3) (hr := by meets) (h0 := by meets) (h1 := by meets)

end Stats

namespace Stats.ExamplesC18
open Fl Spec
open scoped Stats.Exact

/-- 5 trials with probability 1/2: a median -/
example : ∃ k : ℤ, qbinom (fin (1 / 2)) 5 (fin (1 / 2)) = some (fin k) ∧
    IsSmallest (fun k => pbinom k 5 (fin (1 / 2))) (Set.Icc 0 5) (fin (1 / 2)) k :=
  C18_qbinom_partial 5 (by norm_num) (by norm_num) (by norm_num) (by norm_num)
/-- rate 12, the branch with the normal approximation -/
example : ∃ k : ℤ, qpois (fin (1 / 3)) (fin 12) = some (fin k) ∧
    IsSmallestAbove (fun k => ppois k (fin 12)) (Set.Ici 0) (fin (1 / 3)) k :=
  C19_qpois_above_partial (Exact.eps_le (by norm_num)) (by norm_num) (by norm_num)
/-- `qpois(ppois(3, 2), 2) = 4` -/
example : qpois (ppois 3 (fin 2) false) (fin 2) = some (fin 4) := by
  have := (C19_qpois_violated (rate := 2) (Exact.eps_le (by norm_num)) 3).1
  norm_num at this; simpa using this
example : qpois (fin (1 / 2)) pinf = none := C20_qpois_inf_call_violated (by norm_num) (by norm_num)

end Stats.ExamplesC18
